import Verif.Model.CheapestInsertion
import Verif.Lemmas.NearestNeighborLoop

/-! # Lemmas for the cheapest insertion heuristic -/

namespace Verif
open Spec

/-- The values of the list. -/
def CIRoute.vals (rd : CIRoute) : List ℕ := rd.route.map (·.val)

/-- The customers of a route. -/
def CIRoute.custs (rd : CIRoute) : List ℕ := rd.vals.tail.dropLast

/-- The cost of serving each customer on its own. -/
def sepCost (D : ℕ → ℕ → ℚ) (u : List ℕ) : ℚ := (u.map fun c => D 0 c + D c 0).sum

/-- What is kept about an entry of the heap. -/
structure InsOk (D : ℕ → ℕ → ℚ) (d : ℕ → ℚ) (C : Option ℚ) (route : List CINode) (ins : Ins) : Prop where
  after : ins.after ∈ route
  before : ins.before ∈ route
  delta : ins.cost_delta = -D ins.after.val ins.before.val + D ins.after.val ins.customer +
    D ins.customer ins.before.val
  demand : truthy C = true → ins.demand_delta = d ins.customer

/-- What is kept about a route. -/
structure CIRouteOk (D : ℕ → ℕ → ℚ) (d : ℕ → ℚ) (C L : Option ℚ) (P Q : Prop) (rd : CIRoute) : Prop where
  ids : (rd.route.map (·.id)).Nodup
  idlt : ∀ x ∈ rd.route, x.id < rd.route.length
  shape : rd.vals = wrap rd.custs
  ne : rd.custs ≠ []
  cost : rd.cost = cost D rd.vals
  used : truthy C = true → rd.used = demand d rd.custs
  ok : P → RouteOk D d C L rd.custs
  sep : Q → rd.cost ≤ sepCost D rd.custs
  heap : ∀ ins ∈ rd.heap, InsOk D d C rd.route ins

theorem custs_of_vals {rd : CIRoute} {u : List ℕ} (h : rd.vals = wrap u) : rd.custs = u := by
  unfold CIRoute.custs; rw [h]; simp [wrap]

/-- The customers chosen for a new route. -/
theorem ciChoose_spec (unrouted : List ℕ) : ∀ (cs chosen : List ℕ), chosen.Nodup → (∀ x ∈ chosen, x ∈ unrouted) →
    (ciChoose unrouted cs chosen).Nodup ∧ (∀ x ∈ ciChoose unrouted cs chosen, x ∈ unrouted ∧ (x ∈ chosen ∨ x ∈ cs)) ∧
      ((∀ x ∈ cs, x ∈ unrouted) → (∀ x ∈ cs, x ∈ ciChoose unrouted cs chosen) ∧
        ∀ x ∈ chosen, x ∈ ciChoose unrouted cs chosen) := by
  intro cs
  induction cs with
  | nil => intro chosen h1 h2; exact ⟨h1, fun x hx => ⟨h2 x hx, .inl hx⟩, fun _ => ⟨by simp, fun x hx => hx⟩⟩
  | cons c cs ih =>
    intro chosen h1 h2
    unfold ciChoose
    by_cases hc : c ∉ unrouted
    · rw [if_pos hc]
      refine ⟨List.nodup_nil, by simp, fun h => absurd (h c (by simp)) hc⟩
    · rw [if_neg hc]
      have hc' : c ∈ unrouted := by simpa using hc
      have hmem : c ∈ (if c ∉ chosen then chosen ++ [c] else chosen) := by
        by_cases h : c ∈ chosen <;> simp [h]
      have hsub : ∀ x ∈ chosen, x ∈ (if c ∉ chosen then chosen ++ [c] else chosen) := by
        intro x hx; by_cases h : c ∈ chosen <;> simp [h, hx]
      have hback : ∀ x ∈ (if c ∉ chosen then chosen ++ [c] else chosen), x ∈ chosen ∨ x = c := by
        intro x hx; by_cases h : c ∈ chosen <;> simp [h] at hx <;> tauto
      have hnd : (if c ∉ chosen then chosen ++ [c] else chosen).Nodup := by
        by_cases h : c ∈ chosen
        · simp [h, h1]
        · simp only [h, not_false_eq_true, if_true]
          refine List.nodup_append.2 ⟨h1, by simp, fun a ha b hb e => ?_⟩
          rw [List.mem_singleton.1 hb] at e
          exact h (e ▸ ha)
      obtain ⟨i1, i2, i3⟩ := ih _ hnd (fun x hx => (hback x hx).elim (h2 x) fun e => e ▸ hc')
      refine ⟨i1, fun x hx => ?_, fun h => ?_⟩
      · obtain ⟨j1, j2⟩ := i2 x hx
        refine ⟨j1, ?_⟩
        rcases j2 with j2 | j2
        · rcases hback x j2 with h | h
          · exact .inl h
          · exact .inr (by simp [h])
        · exact .inr (by simp [j2])
      · obtain ⟨j1, j2⟩ := i3 fun x hx => h x (by simp [hx])
        refine ⟨fun x hx => ?_, fun x hx => j2 x (hsub x hx)⟩
        rcases List.mem_cons.1 hx with rfl | hx
        · exact j2 _ hmem
        · exact j1 x hx

theorem foldl_erase_perm (ch un : List ℕ) (h1 : ch.Nodup) (h2 : ∀ x ∈ ch, x ∈ un) :
    un.Perm (ch ++ ch.foldl List.erase un) := by
  induction ch generalizing un with
  | nil => exact List.Perm.refl _
  | cons c ch ih =>
    obtain ⟨h3, h4⟩ := List.nodup_cons.1 h1
    rw [List.foldl_cons]
    refine (List.perm_cons_erase (h2 c (by simp))).trans ?_
    refine List.Perm.cons c (ih _ h4 fun x hx => ?_)
    exact (List.mem_erase_of_ne fun e => h3 (by rw [← e]; exact hx)).2 (h2 x (by simp [hx]))

/-- The customer has a seed of its own. -/
def HasSeed (seeds : List (List ℕ)) (x : ℕ) : Prop := ∃ c ∈ seeds, c ≠ [] ∧ ∀ y ∈ c, y = x

/-- The entry stands for the customer. -/
def SeedOf (c : List ℕ) (x : ℕ) : Prop := c ≠ [] ∧ ∀ y ∈ c, y = x

/-- No entry with several customers is used: when it is its turn, one of them is routed. -/
def GoodSeeds (seeds : List (List ℕ)) (un : List ℕ) : Prop :=
  ∀ pre c post, seeds = pre ++ c :: post →
    (∃ x, SeedOf c x) ∨ ∃ x ∈ c, x ∉ un ∨ ∃ c' ∈ pre, SeedOf c' x

theorem goodSeeds_sub {seeds : List (List ℕ)} {un un' : List ℕ} (h : GoodSeeds seeds un) (hs : ∀ x ∈ un', x ∈ un) :
    GoodSeeds seeds un' := by
  intro pre c post e
  rcases h pre c post e with h1 | ⟨x, h1, h2 | h2⟩
  · exact .inl h1
  · exact .inr ⟨x, h1, .inl fun hh => h2 (hs x hh)⟩
  · exact .inr ⟨x, h1, .inr h2⟩

theorem goodSeeds_tail {seeds : List (List ℕ)} {un : List ℕ} {c : List ℕ} (h : GoodSeeds (c :: seeds) un)
    (hc : ∀ x, SeedOf c x → x ∉ un) : GoodSeeds seeds un := by
  intro pre c' post e
  rcases h (c :: pre) c' post (by rw [e]; rfl) with h1 | ⟨x, h1, h2 | ⟨c2, h2, h3⟩⟩
  · exact .inl h1
  · exact .inr ⟨x, h1, .inl h2⟩
  · rcases List.mem_cons.1 h2 with rfl | h2
    · exact .inr ⟨x, h1, .inl (hc x h3)⟩
    · exact .inr ⟨x, h1, .inr ⟨c2, h2, h3⟩⟩

theorem ciChoose_nil {un cs : List ℕ} (h : ∃ x ∈ cs, x ∉ un) (ch : List ℕ) : ciChoose un cs ch = [] := by
  induction cs generalizing ch with
  | nil => simp at h
  | cons c cs ih =>
    unfold ciChoose
    by_cases hc : c ∉ un
    · rw [if_pos hc]
    · rw [if_neg hc]
      obtain ⟨x, h1, h2⟩ := h
      rcases List.mem_cons.1 h1 with rfl | h1
      · exact absurd h2 hc
      · exact ih ⟨x, h1, h2⟩ _

theorem ciNewRoute_spec {D : ℕ → ℕ → ℚ} {d : ℕ → ℚ} {un : List ℕ} (hun : un.Nodup) (hne : un ≠ []) :
    ∀ seeds : List (List ℕ), (∀ x ∈ un, HasSeed seeds x) →
      ∃ ch un' seeds', ciNewRoute D d un seeds = .ok (ciSeedRoute D d ch, un', seeds') ∧ ch ≠ [] ∧
        un.Perm (ch ++ un') ∧ (∀ x ∈ un', HasSeed seeds' x) ∧ seeds' <:+ seeds ∧
        (GoodSeeds seeds un → ch.length = 1 ∧ GoodSeeds seeds' un') := by
  intro seeds
  induction seeds with
  | nil =>
    intro h
    obtain ⟨x, hx⟩ := List.exists_mem_of_ne_nil un hne
    obtain ⟨c, hc, _⟩ := h x hx
    simp at hc
  | cons c seeds ih =>
    intro h
    obtain ⟨e1, e2, e3⟩ := ciChoose_spec un c [] List.nodup_nil (by simp)
    unfold ciNewRoute
    simp only
    by_cases hch : ciChoose un c [] = []
    · rw [if_pos hch]
      have : ∀ x ∈ un, HasSeed seeds x := by
        intro x hx
        obtain ⟨c', h1, h2, h3⟩ := h x hx
        rcases List.mem_cons.1 h1 with rfl | h1
        · exfalso
          obtain ⟨y, hy⟩ := List.exists_mem_of_ne_nil c' h2
          have := (e3 fun z hz => by rw [h3 z hz]; exact hx).1 y hy
          rw [hch] at this
          simp at this
        · exact ⟨c', h1, h2, h3⟩
      obtain ⟨ch, un', seeds', i1, i2, i3, i4, i5, i6⟩ := ih this
      refine ⟨ch, un', seeds', i1, i2, i3, i4, i5.trans (List.suffix_cons _ _),
        fun hl => i6 (goodSeeds_tail hl fun x hx hxu => ?_)⟩
      obtain ⟨y, hy⟩ := List.exists_mem_of_ne_nil c hx.1
      have := (e3 fun z hz => by rw [hx.2 z hz]; exact hxu).1 y hy
      rw [hch] at this
      simp at this
    · rw [if_neg hch]
      have hp := foldl_erase_perm _ un e1 fun x hx => (e2 x hx).1
      refine ⟨_, _, _, rfl, hch, hp, fun x hx => ?_, List.suffix_cons _ _, fun hl => ?_⟩
      · have hxu : x ∈ un := hp.mem_iff.2 (List.mem_append_right _ hx)
        obtain ⟨c', h1, h2, h3⟩ := h x hxu
        rcases List.mem_cons.1 h1 with rfl | h1
        · exfalso
          obtain ⟨y, hy⟩ := List.exists_mem_of_ne_nil c' h2
          have hy' := (e3 fun z hz => by rw [h3 z hz]; exact hxu).1 y hy
          rw [h3 y hy] at hy'
          have := (List.nodup_append.1 (hp.nodup_iff.1 hun)).2.2 x hy' x hx
          exact this rfl
        · exact ⟨c', h1, h2, h3⟩
      · have hall : ∀ x ∈ c, x ∈ un := by
          intro x hx
          by_contra hxu
          exact hch (ciChoose_nil ⟨x, hx, hxu⟩ [])
        have hmem := (e3 hall).1
        constructor
        · rcases hl [] c seeds rfl with ⟨x, hx⟩ | ⟨x, h1, h2 | ⟨c', h2, _⟩⟩
          · refine List.length_eq_one_iff.2 ⟨x, ?_⟩
            have hsub : ∀ y ∈ ciChoose un c [], y = x := fun y hy =>
              hx.2 y ((e2 y hy).2.resolve_left (by simp))
            cases hq : ciChoose un c [] with
            | nil => exact absurd hq hch
            | cons a t =>
              rw [hq] at hsub e1
              have ha := hsub a (by simp)
              cases t with
              | nil => rw [ha]
              | cons b t =>
                have hb := hsub b (by simp)
                rw [ha, hb] at e1
                simp at e1
          · exact absurd (hall x h1) h2
          · simp at h2
        · refine goodSeeds_tail (goodSeeds_sub hl fun x hx => hp.mem_iff.2 (List.mem_append_right _ hx)) ?_
          intro x hx hxu
          obtain ⟨y, hy⟩ := List.exists_mem_of_ne_nil c hx.1
          have hy' := hmem y hy
          rw [hx.2 y hy] at hy'
          exact (List.nodup_append.1 (hp.nodup_iff.1 hun)).2.2 x hy' x hxu rfl

theorem ciSeedRoute_ok {D : ℕ → ℕ → ℚ} {d : ℕ → ℚ} {C L : Option ℚ} {P Q : Prop} {ch : List ℕ} (h0 : d 0 = 0)
    (hne : ch ≠ []) (hP : P → RouteOk D d C L ch) (hQ : Q → cost D (wrap ch) ≤ sepCost D ch) :
    CIRouteOk D d C L P Q (ciSeedRoute D d ch) ∧ (ciSeedRoute D d ch).custs = ch := by
  unfold ciSeedRoute
  rw [if_neg hne]
  have hv : (CIRoute.mk ((0 :: (ch ++ [0])).zipIdx.map fun p => (⟨p.2, p.1⟩ : CINode)) (objf (0 :: (ch ++ [0])) D)
      ((0 :: (ch ++ [0])).map d).sum []).vals = wrap ch := by
    unfold CIRoute.vals
    simp only [List.map_map]
    exact List.zipIdx_map_fst 0 _
  have hc := custs_of_vals hv
  refine ⟨⟨?_, ?_, by rw [hc]; exact hv, by rw [hc]; exact hne, ?_, ?_, by rw [hc]; exact hP, ?_, by simp⟩, hc⟩
  · simp only [List.map_map]
    have : ((fun x : CINode => x.id) ∘ fun p : ℕ × ℕ => (⟨p.2, p.1⟩ : CINode)) = Prod.snd := rfl
    rw [this, List.zipIdx_map_snd]
    exact List.nodup_range'
  · intro x hx
    simp only [List.mem_map] at hx
    obtain ⟨p, hp, rfl⟩ := hx
    have := List.snd_lt_of_mem_zipIdx hp
    simpa using this
  · rw [hv]; simp only [objf_eq_cost]; rfl
  · intro _
    rw [hc]
    simp [demand_eq_sum, h0]
  · intro q
    rw [hc]
    simp only [objf_eq_cost]
    exact hQ q

theorem ciNext_spec {route : List CINode} {i : ℕ} {b : CINode} (h : ciNext route i = some b) :
    ∃ l a r, route = l ++ a :: b :: r ∧ a.id = i := by
  induction route with
  | nil => simp [ciNext] at h
  | cons x t ih =>
    cases t with
    | nil => simp [ciNext] at h
    | cons y t =>
      unfold ciNext at h
      by_cases hx : x.id = i
      · rw [if_pos hx] at h
        injection h with h
        exact ⟨[], x, t, by simp [h], hx⟩
      · rw [if_neg hx] at h
        obtain ⟨l, a, r, h1, h2⟩ := ih h
        exact ⟨x :: l, a, r, by rw [h1]; rfl, h2⟩

theorem ciInsertBefore_eq (x b : CINode) (l r : List CINode) (h : ∀ y ∈ l, y.id ≠ b.id) :
    ciInsertBefore x b.id (l ++ b :: r) = l ++ x :: b :: r := by
  induction l with
  | nil => simp [ciInsertBefore]
  | cons y l ih =>
    rw [List.cons_append, ciInsertBefore, if_neg (h y (by simp)), ih fun z hz => h z (by simp [hz])]
    rfl

theorem node_eq {route : List CINode} (h : (route.map (·.id)).Nodup) {a b : CINode} (ha : a ∈ route)
    (hb : b ∈ route) (e : a.id = b.id) : a = b := List.inj_on_of_nodup_map h ha hb e

theorem wrap_parts {u X Y : List ℕ} (hX : X ≠ []) (hY : Y ≠ []) (h : wrap u = X ++ Y) :
    ∃ u1 u2, u = u1 ++ u2 ∧ X = 0 :: u1 ∧ Y = u2 ++ [0] := by
  obtain ⟨Y', y, rfl⟩ : ∃ Y' y, Y = Y' ++ [y] := ⟨Y.dropLast, Y.getLast hY, (List.dropLast_append_getLast hY).symm⟩
  cases X with
  | nil => exact absurd rfl hX
  | cons x X =>
    simp only [wrap, List.cons_append, List.cons.injEq] at h
    obtain ⟨rfl, h⟩ := h
    rw [← List.append_assoc] at h
    obtain ⟨h1, h2⟩ := List.append_inj' h rfl
    injection h2 with h2
    exact ⟨X, Y', h1, rfl, by rw [← h2]⟩

theorem sepCost_perm (D : ℕ → ℕ → ℚ) {a b : List ℕ} (h : a.Perm b) : sepCost D a = sepCost D b :=
  (h.map _).sum_eq

theorem sepCost_cons (D : ℕ → ℕ → ℚ) (c : ℕ) (u : List ℕ) : sepCost D (c :: u) = D 0 c + D c 0 + sepCost D u := by
  simp [sepCost]

/-- An insertion. -/
theorem ciTry_spec {D : ℕ → ℕ → ℚ} {d : ℕ → ℚ} {C L : Option ℚ} {P Q : Prop} {mk : Bool} {rd rd' : CIRoute}
    {ins : Ins} {nw : CINode} {un : List ℕ} (h : CIRouteOk D d C L P Q rd) (hi : InsOk D d C rd.route ins)
    (hQ : Q → mk = false) (hv : ciValid d C ins rd un = true) (ht : ciTry D L mk ins rd = some (rd', nw)) :
    CIRouteOk D d C L P Q rd' ∧ rd'.custs.Perm (ins.customer :: rd.custs) ∧ ins.customer ∈ un ∧
      ins.after ∈ rd'.route ∧ ins.before ∈ rd'.route ∧ nw ∈ rd'.route := by
  unfold ciValid at hv
  by_cases v1 : ins.customer ∉ un
  · rw [if_pos v1] at hv; cases hv
  rw [if_neg v1] at hv
  by_cases v2 : (ciNext rd.route ins.after.id).map (·.id) ≠ some ins.before.id
  · rw [if_pos v2] at hv; cases hv
  rw [if_neg v2] at hv
  by_cases v3 : exceeds C C_EPS (rd.used + d ins.customer) = true
  · rw [if_pos v3] at hv; cases hv
  have v3' := (exceeds_iff _ _ _).1 (by simpa using v3)
  simp only [not_not] at v1 v2
  obtain ⟨b, hb1, hb2⟩ := Option.map_eq_some_iff.1 v2
  obtain ⟨l, a, r, hr, ha⟩ := ciNext_spec hb1
  have hae : a = ins.after := node_eq h.ids (by rw [hr]; simp) hi.after ha
  have hbe : b = ins.before := node_eq h.ids (by rw [hr]; simp) hi.before hb2
  subst hae hbe
  unfold ciTry at ht
  by_cases t1 : mk = false ∧ ins.cost_delta - D 0 ins.customer - D ins.customer 0 > 0
  · rw [if_pos t1] at ht; cases ht
  rw [if_neg t1] at ht
  by_cases t2 : exceeds L S_EPS (rd.cost + ins.cost_delta) = true
  · rw [if_pos t2] at ht; cases ht
  rw [if_neg t2] at ht
  have t2' := (exceeds_iff _ _ _).1 (by simpa using t2)
  simp only [Option.some.injEq, Prod.mk.injEq] at ht
  obtain ⟨rfl, rfl⟩ := ht
  have hids := h.ids
  have hnb : ∀ y ∈ l ++ [ins.after], y.id ≠ ins.before.id := by
    intro y hy e
    have e' : rd.route = (l ++ [ins.after]) ++ ins.before :: r := by rw [hr]; simp
    rw [e', List.map_append, List.map_cons] at hids
    exact (List.nodup_append.1 hids).2.2 _ (List.mem_map_of_mem hy) _ (by simp) e
  have hroute : ciInsertBefore ⟨rd.route.length, ins.customer⟩ ins.before.id rd.route =
      l ++ ins.after :: ⟨rd.route.length, ins.customer⟩ :: ins.before :: r := by
    conv_lhs => arg 3; rw [hr]
    have := ciInsertBefore_eq ⟨rd.route.length, ins.customer⟩ ins.before (l ++ [ins.after]) r hnb
    simpa using this
  generalize hn : (⟨rd.route.length, ins.customer⟩ : CINode) = nw at hroute
  have hperm : (l ++ ins.after :: nw :: ins.before :: r).Perm (nw :: rd.route) := by
    rw [hr]
    have := List.perm_middle (l₁ := l ++ [ins.after]) (a := nw) (l₂ := ins.before :: r)
    simpa using this
  have hvold : wrap rd.custs = (l.map (·.val) ++ [ins.after.val]) ++ (ins.before.val :: r.map (·.val)) := by
    rw [← h.shape, CIRoute.vals, hr]; simp
  obtain ⟨u1, u2, w1, w2, w3⟩ := wrap_parts (by simp) (by simp) hvold
  have hvnew : (l ++ ins.after :: nw :: ins.before :: r).map (·.val) = wrap (u1 ++ ins.customer :: u2) := by
    have : (l ++ ins.after :: nw :: ins.before :: r).map (·.val) =
        (l.map (·.val) ++ [ins.after.val]) ++ (ins.customer :: (ins.before.val :: r.map (·.val))) := by
      rw [← hn]; simp
    rw [this, w2, w3]; simp [wrap]
  set rd' : CIRoute := { rd with
      route := ciInsertBefore nw ins.before.id rd.route
      cost := rd.cost + ins.cost_delta
      used := rd.used + ins.demand_delta } with hrd'
  have hrr : rd'.route = l ++ ins.after :: nw :: ins.before :: r := hroute
  have hv' : rd'.vals = wrap (u1 ++ ins.customer :: u2) := by rw [CIRoute.vals, hrr, hvnew]
  have hc' := custs_of_vals hv'
  have hcp : rd'.custs.Perm (ins.customer :: rd.custs) := by rw [hc', w1]; exact List.perm_middle
  have hcost : cost D rd'.vals = cost D rd.vals + ins.cost_delta := by
    rw [CIRoute.vals, hrr, CIRoute.vals, hr, hi.delta]
    have e1 : (l ++ ins.after :: nw :: ins.before :: r).map (·.val) =
        l.map (·.val) ++ ins.after.val :: (ins.customer :: ins.before.val :: r.map (·.val)) := by
      rw [← hn]; simp
    have e2 : (l ++ ins.after :: ins.before :: r).map (·.val) =
        l.map (·.val) ++ ins.after.val :: (ins.before.val :: r.map (·.val)) := by simp
    rw [e1, e2, cost_append_cons, cost_append_cons D _ _ (ins.before.val :: _)]
    simp only [cost]
    ring
  have hmem : ∀ x ∈ rd.route, x ∈ rd'.route := by
    intro x hx; rw [hrr, hperm.mem_iff]; exact List.mem_cons_of_mem _ hx
  have hlen : rd'.route.length = rd.route.length + 1 := by rw [hrr, hperm.length_eq]; rfl
  refine ⟨⟨?_, ?_, by rw [hc']; exact hv', by rw [hc']; simp, ?_, ?_, ?_, ?_, ?_⟩, hcp, v1, hmem _ hi.after,
    hmem _ hi.before, ?_⟩
  · rw [hrr, (hperm.map _).nodup_iff, List.map_cons, List.nodup_cons]
    refine ⟨fun hx => ?_, h.ids⟩
    obtain ⟨y, hy, e⟩ := List.mem_map.1 hx
    have := h.idlt y hy
    rw [← hn] at e
    simp only at e
    omega
  · intro x hx
    rw [hlen]
    rw [hrr, hperm.mem_iff] at hx
    rcases List.mem_cons.1 hx with rfl | hx
    · rw [← hn]; simp
    · have := h.idlt x hx; omega
  · show rd.cost + ins.cost_delta = _
    rw [hcost, h.cost]
  · intro hC
    show rd.used + ins.demand_delta = _
    rw [h.used hC, hi.demand hC, demand_perm d hcp, demand_cons]; ring
  · intro p
    refine ⟨?_, ?_⟩
    · by_cases hC : truthy C = true
      · rw [demand_perm d hcp, demand_cons]
        rw [h.used hC] at v3'
        convert v3' using 1; ring
      · intro c hc hc0
        exact absurd (by simp [truthy, hc, hc0]) hC
    · rw [hc', ← hv', hcost, ← h.cost]; exact t2'
  · intro q
    have := h.sep q
    have hmk := hQ q
    have t1' : ins.cost_delta - D 0 ins.customer - D ins.customer 0 ≤ 0 := by
      by_contra hh; exact t1 ⟨hmk, by linarith⟩
    show rd.cost + ins.cost_delta ≤ _
    rw [sepCost_perm D hcp, sepCost_cons]
    linarith
  · intro x hx
    obtain ⟨g1, g2, g3, g4⟩ := h.heap x hx
    exact ⟨hmem _ g1, hmem _ g2, g3, g4⟩
  · rw [hrr]; simp

theorem ciNewInsertions_ok {D : ℕ → ℕ → ℚ} {d : ℕ → ℚ} {C L : Option ℚ} {P Q : Prop} {rd : CIRoute}
    (strain : ℕ → ℕ → ℕ → ℚ × ℚ) (un : List ℕ) (h : CIRouteOk D d C L P Q rd) {a b : CINode} (ha : a ∈ rd.route)
    (hb : b ∈ rd.route) : CIRouteOk D d C L P Q (ciNewInsertions D d C L strain un rd a b) := by
  refine ⟨h.ids, h.idlt, h.shape, h.ne, h.cost, h.used, h.ok, h.sep, ?_⟩
  intro ins hins
  rcases List.mem_append.1 hins with hins | hins
  · exact h.heap ins hins
  · obtain ⟨c, _, hc⟩ := List.mem_filterMap.1 hins
    unfold ciCandidate at hc
    simp only at hc
    split_ifs at hc with c1 c2 c3 c4 c5 <;> simp only [Option.some.injEq] at hc <;> subst hc
    · exact ⟨ha, hb, rfl, fun _ => rfl⟩
    · exact ⟨ha, hb, rfl, fun hC => absurd hC (by assumption)⟩

/-- The choice of the heap is one of its entries. -/
def PickOk (pick : List Ins → ℕ) : Prop := ∀ h, h ≠ [] → pick h < h.length

theorem CIRouteOk.shrink {D : ℕ → ℕ → ℚ} {d : ℕ → ℚ} {C L : Option ℚ} {P Q : Prop} {rd : CIRoute} {h' : List Ins}
    (h : CIRouteOk D d C L P Q rd) (hs : ∀ x ∈ h', x ∈ rd.heap) : CIRouteOk D d C L P Q { rd with heap := h' } :=
  ⟨h.ids, h.idlt, h.shape, h.ne, h.cost, h.used, h.ok, h.sep, fun x hx => h.heap x (hs x hx)⟩

theorem ciGenerate_ok {D : ℕ → ℕ → ℚ} {d : ℕ → ℚ} {C L : Option ℚ} {P Q : Prop} {rd : CIRoute}
    (strain : ℕ → ℕ → ℕ → ℚ × ℚ) (un : List ℕ) (h : CIRouteOk D d C L P Q rd) :
    CIRouteOk D d C L P Q (ciGenerate D d C L strain un rd) ∧
      (ciGenerate D d C L strain un rd).route = rd.route := by
  unfold ciGenerate
  by_cases hh : rd.heap = []
  · rw [if_pos hh]
    have hz : ∀ p ∈ rd.route.zip rd.route.tail, p.1 ∈ rd.route ∧ p.2 ∈ rd.route := by
      rintro ⟨a, b⟩ hp
      have := List.of_mem_zip hp
      exact ⟨this.1, List.mem_of_mem_tail this.2⟩
    generalize rd.route.zip rd.route.tail = ps at hz
    clear hh
    induction ps generalizing rd with
    | nil => exact ⟨h, rfl⟩
    | cons p ps ih =>
      rw [List.foldl_cons]
      have hp := hz p (by simp)
      have := ih (rd := ciNewInsertions D d C L strain un rd p.1 p.2) (ciNewInsertions_ok strain un h hp.1 hp.2)
        (fun q hq => hz q (by simp [hq]))
      exact this
  · rw [if_neg hh]; exact ⟨h, rfl⟩

theorem custs_of_route {a b : CIRoute} (h : a.route = b.route) : a.custs = b.custs := by
  unfold CIRoute.custs CIRoute.vals; rw [h]

/-- The inner loop. -/
theorem ciPopLoop_spec {D : ℕ → ℕ → ℚ} {d : ℕ → ℚ} {C L : Option ℚ} {P Q : Prop} {mk : Bool}
    (strain : ℕ → ℕ → ℕ → ℚ × ℚ) {pick : List Ins → ℕ} (hpick : PickOk pick) (un : List ℕ) (hQ : Q → mk = false) :
    ∀ (n : ℕ) (rd : CIRoute), rd.heap.length = n → CIRouteOk D d C L P Q rd →
      ∃ rd' un', ciPopLoop D d C L strain mk pick un n rd = .ok (rd', un') ∧ CIRouteOk D d C L P Q rd' ∧
        ((rd'.heap = [] ∧ un' = un ∧ rd'.custs = rd.custs) ∨
          ∃ c ∈ un, un' = un.erase c ∧ rd'.custs.Perm (c :: rd.custs)) := by
  intro n
  induction n with
  | zero =>
    intro rd hn h
    exact ⟨rd, un, rfl, h, .inl ⟨List.length_eq_zero_iff.1 hn, rfl, rfl⟩⟩
  | succ n ih =>
    intro rd hn h
    have hlt := hpick rd.heap (by intro e; rw [e] at hn; simp at hn)
    have hget : rd.heap[pick rd.heap]? = some rd.heap[pick rd.heap] := List.getElem?_eq_getElem hlt
    generalize hins : rd.heap[pick rd.heap] = ins at hget
    have hmem : ins ∈ rd.heap := List.mem_of_getElem? hget
    unfold ciPopLoop
    rw [show idx rd.heap (pick rd.heap) = .ok ins by rw [idx, hget]]
    simp only
    have hs : ∀ x ∈ rd.heap.eraseIdx (pick rd.heap), x ∈ rd.heap := fun x hx => List.mem_of_mem_eraseIdx hx
    have h' := h.shrink hs
    have hl' : (rd.heap.eraseIdx (pick rd.heap)).length = n := by
      rw [List.length_eraseIdx_of_lt hlt, hn]; rfl
    obtain ⟨rd1, un1, i1, i2, i3⟩ := ih { rd with heap := rd.heap.eraseIdx (pick rd.heap) } hl' h'
    by_cases hv : ciValid d C ins { rd with heap := rd.heap.eraseIdx (pick rd.heap) } un = true
    · rw [if_pos hv]
      cases ht : ciTry D L mk ins { rd with heap := rd.heap.eraseIdx (pick rd.heap) } with
      | none => exact ⟨rd1, un1, i1, i2, i3⟩
      | some p =>
        obtain ⟨rd2, nw⟩ := p
        obtain ⟨g1, g2, g3, g4, g5, g6⟩ := ciTry_spec h' (h.heap ins hmem) hQ hv ht
        simp only
        have k1 := ciNewInsertions_ok strain (un.erase ins.customer) g1 g4 g6
        have k2 := ciNewInsertions_ok strain (un.erase ins.customer) k1
          (show nw ∈ (ciNewInsertions D d C L strain (un.erase ins.customer) rd2 ins.after nw).route from g6)
          (show ins.before ∈ (ciNewInsertions D d C L strain (un.erase ins.customer) rd2 ins.after nw).route from g5)
        exact ⟨_, _, rfl, k2, .inr ⟨ins.customer, g3, rfl, g2⟩⟩
    · rw [if_neg hv]; exact ⟨rd1, un1, i1, i2, i3⟩

/-- The customers of the routes. -/
def allCusts (rds : List CIRoute) : List ℕ := rds.flatMap (·.custs)

/-- The invariant of the main loop. -/
structure CIInv (N : ℕ) (D : ℕ → ℕ → ℚ) (d : ℕ → ℚ) (C L : Option ℚ) (P Q R : Prop) (s : CIState) : Prop where
  routes : ∀ rd ∈ s.routes, CIRouteOk D d C L P Q rd
  complete : ∀ rd ∈ s.complete, CIRouteOk D d C L P Q rd
  perm : (allCusts (s.routes ++ s.complete) ++ s.unrouted).Perm (List.range' 1 (N - 1))
  seeds : ∀ x ∈ s.unrouted, HasSeed s.seeds x
  single : R → GoodSeeds s.seeds s.unrouted

theorem allCusts_append (a b : List CIRoute) : allCusts (a ++ b) = allCusts a ++ allCusts b := by
  simp [allCusts]

theorem allCusts_set {rs : List CIRoute} {k : ℕ} {rd : CIRoute} (h : rs[k]? = some rd) (rd' : CIRoute) :
    (rd.custs ++ allCusts (rs.set k rd')).Perm (rd'.custs ++ allCusts rs) := by
  induction rs generalizing k with
  | nil => simp at h
  | cons x rs ih =>
    cases k with
    | zero =>
      simp only [List.getElem?_cons_zero, Option.some.injEq] at h
      subst h
      simp only [List.set_cons_zero, allCusts, List.flatMap_cons]
      rw [← List.append_assoc, ← List.append_assoc]
      exact List.perm_append_comm.append_right _
    | succ k =>
      simp only [List.getElem?_cons_succ] at h
      have := ih h
      simp only [List.set_cons_succ, allCusts, List.flatMap_cons]
      simp only [allCusts] at this
      refine (List.perm_append_comm_assoc _ _ _).trans ?_
      refine (this.append_left _).trans ?_
      exact List.perm_append_comm_assoc _ _ _

theorem CIInv.unNodup {N : ℕ} {D : ℕ → ℕ → ℚ} {d : ℕ → ℚ} {C L : Option ℚ} {P Q R : Prop} {s : CIState}
    (h : CIInv N D d C L P Q R s) : s.unrouted.Nodup :=
  (List.nodup_append.1 (h.perm.nodup_iff.2 List.nodup_range')).2.1

/-- What a new seed must meet. -/
structure SeedsOk (N : ℕ) (D : ℕ → ℕ → ℚ) (d : ℕ → ℚ) (C L : Option ℚ) (P Q R : Prop) : Prop where
  depot : d 0 = 0
  single : P ∨ Q → R
  ok : P → Serviceable N D d C L

theorem seed_ok {N : ℕ} {D : ℕ → ℕ → ℚ} {d : ℕ → ℚ} {C L : Option ℚ} {P Q R : Prop} (h : SeedsOk N D d C L P Q R)
    {ch : List ℕ} (hne : ch ≠ []) (h1 : R → ch.length = 1) (hlt : ∀ x ∈ ch, 1 ≤ x ∧ x < N) :
    CIRouteOk D d C L P Q (ciSeedRoute D d ch) ∧ (ciSeedRoute D d ch).custs = ch := by
  refine ciSeedRoute_ok h.depot hne ?_ ?_
  · intro p
    obtain ⟨x, rfl⟩ := List.length_eq_one_iff.1 (h1 (h.single (.inl p)))
    exact h.ok p x (hlt x (by simp)).1 (hlt x (by simp)).2
  · intro q
    obtain ⟨x, rfl⟩ := List.length_eq_one_iff.1 (h1 (h.single (.inr q)))
    simp [wrap, cost, sepCost]

/-- A new route in place of one without further insertions. -/
theorem ciRenew_spec {N : ℕ} {D : ℕ → ℕ → ℚ} {d : ℕ → ℚ} {C L : Option ℚ} {P Q R : Prop}
    (hS : SeedsOk N D d C L P Q R) {s : CIState} (h : CIInv N D d C L P Q R s) (hk : s.k < s.routes.length)
    (hne : s.unrouted ≠ []) {rd rd1 : CIRoute} {un1 : List ℕ} (hget : s.routes[s.k]? = some rd)
    (p2 : CIRouteOk D d C L P Q rd1)
    (p3 : (rd1.heap = [] ∧ un1 = s.unrouted ∧ rd1.custs = rd.custs) ∨
      ∃ c ∈ s.unrouted, un1 = s.unrouted.erase c ∧ rd1.custs.Perm (c :: rd.custs)) :
    ∃ s', ciRenew D d s rd1 un1 = .ok s' ∧ CIInv N D d C L P Q R s' ∧ s'.k < s'.routes.length ∧
      s'.unrouted.length < s.unrouted.length := by
  -- the inner loop keeps the customers
  have hmid : (allCusts (s.routes.set s.k rd1 ++ s.complete) ++ un1).Perm (List.range' 1 (N - 1)) ∧
      un1.length ≤ s.unrouted.length ∧ (rd1.heap ≠ [] → un1.length < s.unrouted.length) ∧
      (∀ x ∈ un1, x ∈ s.unrouted) := by
    have hset := allCusts_set hget rd1
    rcases p3 with ⟨e1, rfl, e3⟩ | ⟨c, e1, rfl, e3⟩
    · refine ⟨?_, le_refl _, fun hh => absurd e1 hh, fun x hx => hx⟩
      rw [e3] at hset
      refine List.Perm.trans ?_ h.perm
      rw [allCusts_append, allCusts_append]
      exact (((List.perm_append_left_iff _).1 hset).append_right _).append_right _
    · have hl := List.length_erase_of_mem e1
      have hpos : 0 < s.unrouted.length := List.length_pos_of_mem e1
      refine ⟨?_, by omega, fun _ => by omega, fun x hx => List.mem_of_mem_erase hx⟩
      refine List.Perm.trans ?_ h.perm
      rw [allCusts_append, allCusts_append]
      have h2 := hset.trans (e3.append_right _)
      have h3 := List.perm_cons_erase e1
      rw [List.perm_iff_count] at h2 h3 ⊢
      intro x
      have a1 := h2 x
      have a2 := h3 x
      simp only [List.count_append, List.count_cons] at a1 a2 ⊢
      omega
  obtain ⟨m1, m2, m3, m4⟩ := hmid
  have hr1 : ∀ r ∈ s.routes.set s.k rd1, CIRouteOk D d C L P Q r := by
    intro r hr
    rcases List.mem_or_eq_of_mem_set hr with hr | rfl
    · exact h.routes r hr
    · exact p2
  have hk' : (if s.k + 1 = s.routes.length then 0 else s.k + 1) < s.routes.length := by split_ifs <;> omega
  unfold ciRenew
  simp only
  by_cases hren : rd1.heap = [] ∧ un1 ≠ []
  · rw [if_pos hren]
    have hund : un1.Nodup := (List.nodup_append.1 (m1.nodup_iff.2 List.nodup_range')).2.1
    obtain ⟨ch, un2, seeds2, n1, n2, n3, n4, n5, n6⟩ := ciNewRoute_spec (D := D) (d := d) hund hren.2 s.seeds
      (fun x hx => h.seeds x (m4 x hx))
    rw [n1]
    simp only
    have hlt : ∀ x ∈ ch, 1 ≤ x ∧ x < N := by
      intro x hx
      have : x ∈ List.range' 1 (N - 1) := m1.mem_iff.1 (List.mem_append_right _ (n3.mem_iff.2 (List.mem_append_left _ hx)))
      rw [List.mem_range'_1] at this
      omega
    obtain ⟨c1, c2⟩ := seed_ok hS n2 (fun r => (n6 (goodSeeds_sub (h.single r) m4)).1) hlt
    refine ⟨_, rfl, ⟨?_, ?_, ?_, n4, fun r => (n6 (goodSeeds_sub (h.single r) m4)).2⟩, by simpa using hk', ?_⟩
    · intro r hr
      rcases List.mem_or_eq_of_mem_set hr with hr | rfl
      · exact h.routes r hr
      · exact c1
    · intro r hr
      rcases List.mem_append.1 hr with hr | hr
      · exact h.complete r hr
      · rw [List.mem_singleton.1 hr]; exact p2
    · refine List.Perm.trans ?_ m1
      have b1 := allCusts_set hget (ciSeedRoute D d ch)
      have b2 := allCusts_set hget rd1
      rw [c2] at b1
      rw [List.perm_iff_count] at b1 b2 n3 ⊢
      intro x
      have a1 := b1 x
      have a2 := b2 x
      have a3 := n3 x
      simp only [allCusts_append, List.count_append] at a1 a2 a3 ⊢
      have a4 : List.count x (allCusts [rd1]) = List.count x rd1.custs := by simp [allCusts]
      omega
    · have := n3.length_eq
      have hp : 0 < ch.length := List.length_pos_iff.2 n2
      simp only [List.length_append] at this ⊢
      omega
  · rw [if_neg hren]
    refine ⟨_, rfl, ⟨hr1, h.complete, m1, fun x hx => h.seeds x (m4 x hx), fun r => goodSeeds_sub (h.single r) m4⟩, by simpa using hk', ?_⟩
    by_cases hh : rd1.heap = []
    · have : un1 = [] := by by_contra e; exact hren ⟨hh, e⟩
      rw [this]
      exact List.length_pos_iff.2 hne
    · exact m3 hh

/-- A round of the main loop. -/
theorem ciStep_spec {N : ℕ} {D : ℕ → ℕ → ℚ} {d : ℕ → ℚ} {C L : Option ℚ} {P Q R : Prop} {mk : Bool}
    (strain : ℕ → ℕ → ℕ → ℚ × ℚ) {pick : List Ins → ℕ} (hpick : PickOk pick) (hQ : Q → mk = false)
    (hS : SeedsOk N D d C L P Q R) {s : CIState} (h : CIInv N D d C L P Q R s) (hk : s.k < s.routes.length)
    (hne : s.unrouted ≠ []) :
    ∃ s', ciStep D d C L strain mk pick s = .ok s' ∧ CIInv N D d C L P Q R s' ∧ s'.k < s'.routes.length ∧
      s'.unrouted.length < s.unrouted.length := by
  have hget : s.routes[s.k]? = some s.routes[s.k] := List.getElem?_eq_getElem hk
  generalize s.routes[s.k] = rd at hget
  have hrd := h.routes rd (List.mem_of_getElem? hget)
  obtain ⟨g1, g2⟩ := ciGenerate_ok strain s.unrouted hrd
  obtain ⟨rd1, un1, p1, p2, p3⟩ := ciPopLoop_spec strain hpick s.unrouted hQ _ _ rfl g1
  rw [custs_of_route g2] at p3
  unfold ciStep
  rw [show idx s.routes s.k = .ok rd by rw [idx, hget]]
  simp only
  rw [p1]
  exact ciRenew_spec hS h hk hne hget p2 p3

theorem ciLoop_spec {N : ℕ} {D : ℕ → ℕ → ℚ} {d : ℕ → ℚ} {C L : Option ℚ} {P Q R : Prop} {mk : Bool}
    (strain : ℕ → ℕ → ℕ → ℚ × ℚ) {pick : List Ins → ℕ} (hpick : PickOk pick) (hQ : Q → mk = false)
    (hS : SeedsOk N D d C L P Q R) {s : CIState} (h : CIInv N D d C L P Q R s) (hk : s.k < s.routes.length) :
    ∃ s', (∀ fuel, s.unrouted.length < fuel → ciLoop D d C L strain mk pick fuel s = .ok (some s')) ∧
      CIInv N D d C L P Q R s' ∧ s'.unrouted = [] := by
  induction hn : s.unrouted.length using Nat.strong_induction_on generalizing s with
  | _ n ih =>
    by_cases he : s.unrouted = []
    · refine ⟨s, fun fuel hf => ?_, h, he⟩
      obtain ⟨f, rfl⟩ : ∃ f, fuel = f + 1 := ⟨fuel - 1, by omega⟩
      rw [ciLoop, if_pos he]
    · obtain ⟨s1, e1, e2, e3, e4⟩ := ciStep_spec strain hpick hQ hS h hk he
      obtain ⟨s', i1, i2, i3⟩ := ih _ (hn ▸ e4) e2 e3 rfl
      refine ⟨s', fun fuel hf => ?_, i2, i3⟩
      obtain ⟨f, rfl⟩ : ∃ f, fuel = f + 1 := ⟨fuel - 1, by omega⟩
      rw [ciLoop, if_neg he, e1]
      exact i1 f (by omega)

theorem ciNewRoute_nil (D : ℕ → ℕ → ℚ) (d : ℕ → ℚ) (seeds : List (List ℕ)) :
    ciNewRoute D d [] seeds = .error .indexError := by
  induction seeds with
  | nil => rfl
  | cons c seeds ih =>
    have : ciChoose [] c [] = [] := by cases c <;> simp [ciChoose]
    rw [ciNewRoute, this]
    simp only [if_true]
    exact ih

/-- The initial routes. -/
theorem ciStart_spec {N : ℕ} {D : ℕ → ℕ → ℚ} {d : ℕ → ℚ} {C L : Option ℚ} {P Q R : Prop}
    (hS : SeedsOk N D d C L P Q R) : ∀ (n : ℕ) (s : CIState), CIInv N D d C L P Q R s →
      ((R ∨ n ≤ 1) ∧ n ≤ s.unrouted.length → ∃ s', ciStart D d n s = .ok s') ∧
      (s.unrouted.length < n → ciStart D d n s = .error .indexError) ∧
      (∀ e, ciStart D d n s = .error e → e = .indexError) ∧
      ∀ s', ciStart D d n s = .ok s' → CIInv N D d C L P Q R s' ∧ s'.routes.length = s.routes.length + n ∧
        s'.k = s.k := by
  intro n
  induction n with
  | zero =>
    intro s h
    refine ⟨fun _ => ⟨s, rfl⟩, fun hh => (by omega), fun e he => (by cases he), fun s' hs => ?_⟩
    injection hs with hs
    exact hs ▸ ⟨h, rfl, rfl⟩
  | succ n ih =>
    intro s h
    unfold ciStart
    by_cases hne : s.unrouted = []
    · rw [hne, ciNewRoute_nil]
      refine ⟨fun hh => ?_, fun _ => rfl, fun e he => ?_, fun s' hs => (by cases hs)⟩
      · simp at hh
      · injection he with he; exact he.symm
    · obtain ⟨ch, un2, seeds2, n1, n2, n3, n4, n5, n6⟩ := ciNewRoute_spec (D := D) (d := d) h.unNodup hne s.seeds h.seeds
      rw [n1]
      simp only
      have hlt : ∀ x ∈ ch, 1 ≤ x ∧ x < N := by
        intro x hx
        have : x ∈ List.range' 1 (N - 1) := h.perm.mem_iff.1 (List.mem_append_right _ (n3.mem_iff.2 (List.mem_append_left _ hx)))
        rw [List.mem_range'_1] at this
        omega
      obtain ⟨c1, c2⟩ := seed_ok hS n2 (fun r => (n6 (h.single r)).1) hlt
      have hinv : CIInv N D d C L P Q R ⟨seeds2, un2, s.routes ++ [ciSeedRoute D d ch], s.complete, s.k⟩ := by
        refine ⟨?_, h.complete, ?_, n4, fun r => (n6 (h.single r)).2⟩
        · intro r hr
          rcases List.mem_append.1 hr with hr | hr
          · exact h.routes r hr
          · rw [List.mem_singleton.1 hr]; exact c1
        · refine List.Perm.trans ?_ h.perm
          rw [List.perm_iff_count] at n3 ⊢
          intro x
          have a3 := n3 x
          simp only [allCusts_append, List.count_append] at a3 ⊢
          have a4 : List.count x (allCusts [ciSeedRoute D d ch]) = List.count x ch := by simp [allCusts, c2]
          omega
      obtain ⟨i1, i3, i4, i2⟩ := ih _ hinv
      have hlen := n3.length_eq
      have hpos : 0 < ch.length := List.length_pos_iff.2 n2
      simp only [List.length_append] at hlen
      refine ⟨fun hR => ?_, fun hh => i3 (by simp only; omega), i4, fun s' hs => ?_⟩
      · rcases hR.1 with r | r
        · have hl := (n6 (h.single r)).1
          exact i1 ⟨.inl r, by have := hR.2; simp only; omega⟩
        · exact i1 ⟨.inr (by omega), by simp only; omega⟩
      · obtain ⟨j1, j2, j3⟩ := i2 s' hs
        refine ⟨j1, ?_, j3⟩
        rw [j2]; simp; omega


theorem ciSeeds_spec {N : ℕ} (D : ℕ → ℕ → ℚ) (strain : ℕ → ℕ → ℕ → ℚ × ℚ) {mode : CIMode} (hm : mode ≠ .other) :
    ∃ seeds, ciSeeds D N strain mode = .ok seeds ∧ (∀ x ∈ pyRange 1 N, HasSeed seeds x) ∧
      (mode ≠ .strain → GoodSeeds seeds (pyRange 1 N)) := by
  have hg : ∀ xs : List ℕ, GoodSeeds (xs.map fun i => [i]) (pyRange 1 N) := by
    intro xs pre c post e
    have : c ∈ xs.map fun i => [i] := by rw [e]; simp
    obtain ⟨x, _, rfl⟩ := List.mem_map.1 this
    exact .inl ⟨x, by simp, by simp⟩
  cases mode with
  | farthest =>
    refine ⟨_, rfl, fun x hx => ⟨[x], ?_, by simp, by simp⟩, fun _ => hg _⟩
    · refine List.mem_map.2 ⟨x, ?_, rfl⟩
      rw [List.mem_reverse, mem_pySort]; exact hx
  | closest =>
    refine ⟨_, rfl, fun x hx => ⟨[x], ?_, by simp, by simp⟩, fun _ => hg _⟩
    · refine List.mem_map.2 ⟨x, ?_, rfl⟩
      rw [mem_pySort]; exact hx
  | strain =>
    refine ⟨_, rfl, fun x hx => ⟨[x, x], ?_, by simp, by simp⟩, fun h => absurd rfl h⟩
    refine List.mem_map.2 ⟨(x, x), ?_, rfl⟩
    rw [List.mem_reverse, mem_pySort, List.mem_flatMap]
    refine ⟨x, hx, List.mem_map.2 ⟨x, ?_, rfl⟩⟩
    simp only [pyRange, List.mem_range'_1] at hx ⊢
    omega
  | other => exact absurd rfl hm

theorem ciInit_inv {N : ℕ} {D : ℕ → ℕ → ℚ} {d : ℕ → ℚ} {C L : Option ℚ} {P Q R : Prop}
    (hS : SeedsOk N D d C L P Q R) (strain : ℕ → ℕ → ℕ → ℚ × ℚ) {mode : CIMode} (hm : mode ≠ .other)
    (hR : R → ∀ seeds, ciSeeds D N strain mode = .ok seeds → GoodSeeds seeds (pyRange 1 N)) (count : ℕ) :
    ((R ∨ count ≤ 1) ∧ count ≤ N - 1 → ∃ s, ciInit D d N count strain mode = .ok s) ∧
      (N - 1 < count → ciInit D d N count strain mode = .error .indexError) ∧
      (∀ e, ciInit D d N count strain mode = .error e → e = .indexError) ∧
      ∀ s, ciInit D d N count strain mode = .ok s → CIInv N D d C L P Q R s ∧ s.routes.length = count ∧ s.k = 0 := by
  obtain ⟨seeds, h1, h2, h3⟩ := ciSeeds_spec (N := N) D strain hm
  unfold ciInit
  rw [h1]
  simp only
  have hinv : CIInv N D d C L P Q R ⟨seeds, pyRange 1 N, [], [], 0⟩ := by
    refine ⟨by simp, by simp, ?_, h2, fun r => hR r _ h1⟩
    simp [allCusts, pyRange]
  obtain ⟨i1, i2, i3, i4⟩ := ciStart_spec hS count _ hinv
  have hl : (pyRange 1 N).length = N - 1 := by simp [pyRange]
  simp only [hl] at i1 i2
  exact ⟨i1, i2, i3, fun s hs => by simpa using i4 s hs⟩

/-- The routes in the order of the result. -/
def ciRoutes (s : CIState) : List (List ℕ) := (s.routes ++ s.complete).map (·.custs)

theorem ciExport_eq {D : ℕ → ℕ → ℚ} {d : ℕ → ℚ} {C L : Option ℚ} {P Q : Prop} (rds : List CIRoute)
    (h : ∀ rd ∈ rds, CIRouteOk D d C L P Q rd) :
    ciExport rds = (rds.map (·.custs)).flatMap fun b => b ++ [0] := by
  induction rds with
  | nil => rfl
  | cons rd rds ih =>
    have hrd := h rd (by simp)
    have hlen : rd.route.length > 2 := by
      have : rd.vals.length = rd.route.length := by simp [CIRoute.vals]
      rw [← this, hrd.shape]
      have := List.length_pos_iff.2 hrd.ne
      simp [wrap]; omega
    have e : (rd.route.map (·.val)).tail = rd.custs ++ [0] := by
      show rd.vals.tail = _
      rw [hrd.shape]; rw [custs_of_vals hrd.shape]; simp [wrap]
    have := ih fun r hr => h r (by simp [hr])
    unfold ciExport at this ⊢
    rw [List.flatMap_cons, if_pos hlen, e, this]
    simp

theorem ciResult_eq {N : ℕ} {D : ℕ → ℕ → ℚ} {d : ℕ → ℚ} {C L : Option ℚ} {P Q R : Prop} {s : CIState}
    (h : CIInv N D d C L P Q R s) : ciResult s = tour (ciRoutes s) := by
  unfold ciResult ciRoutes
  rw [ciExport_eq _ h.routes, ciExport_eq _ h.complete]
  have := tour_append_flatMap [] ((s.routes ++ s.complete).map (·.custs))
  simp only [List.nil_append, tour] at this
  rw [this]
  simp

theorem ciRoutes_flatten (s : CIState) : (ciRoutes s).flatten = allCusts (s.routes ++ s.complete) := by
  simp [ciRoutes, allCusts, List.flatMap]

theorem ciRoutes_ok {N : ℕ} {D : ℕ → ℕ → ℚ} {d : ℕ → ℚ} {C L : Option ℚ} {P Q R : Prop} {s : CIState}
    (h : CIInv N D d C L P Q R s) : ∀ u ∈ ciRoutes s, u ≠ [] ∧ (P → RouteOk D d C L u) := by
  intro u hu
  obtain ⟨rd, hrd, rfl⟩ := List.mem_map.1 hu
  have : CIRouteOk D d C L P Q rd := (List.mem_append.1 hrd).elim (h.routes rd) (h.complete rd)
  exact ⟨this.ne, this.ok⟩

theorem sepCost_append (D : ℕ → ℕ → ℚ) (a b : List ℕ) : sepCost D (a ++ b) = sepCost D a + sepCost D b := by
  simp [sepCost]

end Verif

namespace Verif
open Spec

theorem ciPairLe_total (D : ℕ → ℕ → ℚ) (st : ℕ → ℕ → ℕ → ℚ × ℚ) (a b : ℕ × ℕ) :
    ciPairLe D st a b = true ∨ ciPairLe D st b a = true := by
  simp only [ciPairLe, Bool.or_eq_true, Bool.and_eq_true, decide_eq_true_eq]
  rcases lt_trichotomy (st 0 a.1 a.2).1 (st 0 b.1 b.2).1 with h | h | h
  · exact .inl (.inl h)
  · rcases lt_trichotomy (-D a.1 a.2) (-D b.1 b.2) with g | g | g
    · exact .inl (.inr ⟨h, .inl g⟩)
    · rcases lt_trichotomy a.1 b.1 with f | f | f
      · exact .inl (.inr ⟨h, .inr ⟨g, .inl f⟩⟩)
      · rcases le_total a.2 b.2 with e | e
        · exact .inl (.inr ⟨h, .inr ⟨g, .inr ⟨f, e⟩⟩⟩)
        · exact .inr (.inr ⟨h.symm, .inr ⟨g.symm, .inr ⟨f.symm, e⟩⟩⟩)
      · exact .inr (.inr ⟨h.symm, .inr ⟨g.symm, .inl f⟩⟩)
    · exact .inr (.inr ⟨h.symm, .inl g⟩)
  · exact .inr (.inl h)

theorem ciPairLe_trans (D : ℕ → ℕ → ℚ) (st : ℕ → ℕ → ℕ → ℚ × ℚ) (a b c : ℕ × ℕ)
    (h1 : ciPairLe D st a b = true) (h2 : ciPairLe D st b c = true) : ciPairLe D st a c = true := by
  simp only [ciPairLe, Bool.or_eq_true, Bool.and_eq_true, decide_eq_true_eq] at *
  rcases h1 with h1 | ⟨h1, g1⟩
  · rcases h2 with h2 | ⟨h2, g2⟩
    · exact .inl (h1.trans h2)
    · exact .inl (h2 ▸ h1)
  · rcases h2 with h2 | ⟨h2, g2⟩
    · exact .inl (h1 ▸ h2)
    · refine .inr ⟨h1.trans h2, ?_⟩
      rcases g1 with g1 | ⟨g1, f1⟩
      · rcases g2 with g2 | ⟨g2, f2⟩
        · exact .inl (g1.trans g2)
        · exact .inl (g2 ▸ g1)
      · rcases g2 with g2 | ⟨g2, f2⟩
        · exact .inl (g1 ▸ g2)
        · refine .inr ⟨g1.trans g2, ?_⟩
          omega

/-- With the criterion of the code and the triangle inequality, or with the weights of the heuristic of Mole and Jameson, no pair is ever
used as a seed. -/
theorem strain_goodSeeds {D : ℕ → ℕ → ℚ} {N : ℕ} {lm mm : ℚ} (hlm : 0 ≤ lm) (hmm : 0 ≤ mm)
    (hnn : ∀ i j, 0 ≤ D i j) (hd : ∀ i, D i i = 0) (ht : mm = lm - 1 ∨ ((∀ i j, D 0 j ≤ D 0 i + D i j) ∧ ∀ i j, D 0 i ≤ D 0 j + D i j)) {seeds : List (List ℕ)}
    (hs : ciSeeds D N (parametrized_insertion_criteria D lm mm) .strain = .ok seeds) (un : List ℕ) :
    GoodSeeds seeds un := by
  injection hs with hs
  set st := parametrized_insertion_criteria D lm mm with hst
  set L := (pyRange 1 N).flatMap fun i => (pyRange i N).map fun j => (i, j) with hL
  intro pre c post e
  rw [← hs] at e
  obtain ⟨pre', rest, e1, e2, e3⟩ := List.map_eq_append_iff.1 e
  obtain ⟨⟨i, j⟩, post', e4, e5, e6⟩ := List.map_eq_cons_iff.1 e3
  by_cases hij : i = j
  · left
    refine ⟨i, ?_⟩
    rw [← e5, hij]
    exact ⟨by simp, by simp⟩
  · right
    have hpw := pySort_pairwise (ciPairLe_trans D st) (fun a b => by simpa using ciPairLe_total D st a b) L
    have hmem : ∀ p, p ∈ pre' ++ (i, j) :: post' ↔ p ∈ L := by
      intro p; rw [← e4, ← e1, List.mem_reverse, mem_pySort]
    have hpw' : (pre' ++ (i, j) :: post').Pairwise fun a b => ciPairLe D st b a = true := by
      rw [← e4, ← e1, List.pairwise_reverse]; exact hpw
    have hLm : ∀ a b, (a, b) ∈ L ↔ 1 ≤ a ∧ a ≤ b ∧ b < N := by
      intro a b
      simp only [hL, List.mem_flatMap, List.mem_map, pyRange, List.mem_range'_1, Prod.mk.injEq]
      constructor
      · rintro ⟨x, h1, y, h2, rfl, rfl⟩; omega
      · rintro ⟨h1, h2, h3⟩; exact ⟨a, by omega, b, by omega, rfl, rfl⟩
    obtain ⟨k1, k2, k3⟩ := (hLm i j).1 ((hmem (i, j)).1 (by simp))
    have hi := (hmem (i, i)).2 ((hLm i i).2 ⟨k1, le_refl _, by omega⟩)
    have hj := (hmem (j, j)).2 ((hLm j j).2 ⟨by omega, le_refl _, k3⟩)
    have hpost : ∀ p ∈ post', ciPairLe D st p (i, j) = true := fun p hp =>
      (List.pairwise_cons.1 (List.pairwise_append.1 hpw').2.1).1 p hp
    have hin : ∀ x, (x, x) ∈ pre' → ∃ c' ∈ pre, SeedOf c' x := by
      intro x hx
      exact ⟨[x, x], by rw [← e2]; exact List.mem_map.2 ⟨(x, x), hx, rfl⟩, by simp, by simp⟩
    rcases List.mem_append.1 hi with hi | hi
    · exact ⟨i, by rw [← e5]; simp, .inr (hin i hi)⟩
    rcases List.mem_append.1 hj with hj | hj
    · exact ⟨j, by rw [← e5]; simp, .inr (hin j hj)⟩
    exfalso
    have hi' := hpost _ ((List.mem_cons.1 hi).resolve_left fun hh => hij (by injection hh))
    have hj' := hpost _ ((List.mem_cons.1 hj).resolve_left fun hh => hij (by injection hh with h1 h2; exact h1.symm))
    simp only [ciPairLe, hst, parametrized_insertion_criteria, Bool.or_eq_true, Bool.and_eq_true,
      decide_eq_true_eq, hd] at hi' hj'
    have a1 := hnn i j
    have hJ : lm * D 0 j - (D 0 j + 0 - mm * D 0 j) < lm * D 0 i - (D 0 i + D i j - mm * D 0 j) := by
      rcases hj' with h | ⟨h, g | ⟨g, f⟩⟩
      · exact h
      · linarith
      · omega
    have hI : lm * D 0 i - (D 0 i + 0 - mm * D 0 i) ≤ lm * D 0 i - (D 0 i + D i j - mm * D 0 j) := by
      rcases hi' with h | ⟨h, g | ⟨g, f⟩⟩
      · exact h.le
      · linarith
      · exact h.le
    rcases ht with rfl | ⟨ht1, ht2⟩
    · nlinarith
    have a2 := ht1 i j
    have a3 := ht2 i j
    rcases le_or_gt (D 0 i) (D 0 j) with hle | hgt
    · rcases le_or_gt 1 lm with h1 | h1
      · have := mul_nonneg (sub_nonneg.2 h1) (sub_nonneg.2 hle)
        nlinarith
      · have h2 : (1 - lm) * (D 0 j - D 0 i) ≤ (1 - lm) * D i j :=
          mul_le_mul_of_nonneg_left (by linarith) (by linarith)
        have h3 : 0 ≤ lm * D i j := mul_nonneg hlm a1
        nlinarith
    · have h2 : 0 ≤ mm * (D 0 i - D 0 j) := mul_nonneg hmm (by linarith)
      nlinarith

end Verif
