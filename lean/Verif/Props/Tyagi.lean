import Verif.Lemmas.TyagiInit
import Verif.Props.NearestNeighbor
import Mathlib.Logic.Relation
import Mathlib.Tactic.IntervalCases

/-! # C53: the heuristic of Tyagi -/

namespace Verif
open Spec

/-- **C53**, the grouping: for every set of forbidden customers it ends, every other customer is in exactly one
group, no group is empty, and each keeps the limits if every customer alone does. Without a customer to group the
result is `None`. -/
theorem C53_grouping {N : ℕ} {D : ℕ → ℕ → ℚ} (d : ℕ → ℚ) (C L : Option ℚ) (endOnly all : Bool) (Fb : List ℕ)
    (hN : 1 ≤ N) (hD : DistinctCustomers N D) :
    ∃ us : List (List ℕ), us.flatten.Perm (allowed N Fb) ∧ [] ∉ us ∧
      (Serviceable N D d C L → ∀ u ∈ us, RouteOk D d C L u) ∧
      ∃ F, ∀ fuel ≥ F, nn_with_callback D d C L N endOnly Fb (route_end_interchange D d C L N all) fuel =
        .ok (some (if us = [] then none else some (tour us))) := by
  obtain ⟨us, h1, h2, h3⟩ := grouping_spec d C L endOnly all Fb hN hD
  exact ⟨us, h1, fun hh => (h2 _ hh).1 rfl, fun hs u hu => (h2 u hu).2 hs, N * (N + 2) + N + 1,
    fun fuel hf => h3 fuel (by omega)⟩

/-- **C53**, the interchange: called for a group with its demand and cost, it looks for a free customer `y`, the first
one in the list of the last customer of the group. Either no replacement that it looks at (of any customer, or of the
last and the first one only) is better, and nothing changes but the position in that list; or `y` is put in the place
of one customer, which is free from then on, and the group keeps the limits and has more demand (or is shorter, without
a capacity). It is the last of the good places: with `all` the rightmost, without it the first customer, if that is
one. -/
theorem C53_interchange {D : ℕ → ℕ → ℚ} (d : ℕ → ℚ) (C L : Option ℚ) (N : ℕ) (all : Bool) {u : List ℕ} {rd rl : ℚ}
    {last y pos : ℕ} {served : ℕ → Bool} {queues : ℕ → KeyQueue} (hlast : u.getLast? = some last)
    (hC : InUse C → rd = demand d u) (hL : InUse L → rl = cost D (wrap u))
    (hq : ∀ i, (queues i).left ≤ (queues i).l.length)
    (hy : keySkip served (queues last).rest (queues last).left = some (y, pos)) :
    served y = false ∧
    ∃ v served' queues', route_end_interchange D d C L N all (wrap u) rd rl served queues =
        .ok (wrap v, served', queues') ∧
      ((v = u ∧ served' = served ∧ queues' = setLeft queues last pos ∧
          (all = true → ∀ j < u.length, ¬ BetterGroup D d C L u (u.set j y)) ∧
          (all = false → ¬ BetterGroup D d C L u (u.set 0 y) ∧ ¬ BetterGroup D d C L u (u.set (u.length - 1) y))) ∨
        ∃ i x, i < u.length ∧ u[i]? = some x ∧ v = u.set i y ∧ BetterGroup D d C L u v ∧
          (∀ j, served' j = if j = x then false else if j = y then true else served j) ∧
          (all = true → ∀ j, i < j → j < u.length → ¬ BetterGroup D d C L u (u.set j y)) ∧
          (all = false → (i = 0 ∨ i = u.length - 1) ∧ (i ≠ 0 → ¬ BetterGroup D d C L u (u.set 0 y)))) := by
  obtain ⟨y1, _, ⟨key, y3⟩, _, _⟩ := names_some (hq last) hy
  refine ⟨y1, ?_⟩
  have := lt_of_getElem? y3
  rcases interchange_spec (N := N) (all := all) hC hL hlast hq (by omega) hy with ⟨e1, e2⟩ | ⟨i, x, queues', e1, e2, e3, e4⟩
  · exact ⟨u, _, _, e1, .inl ⟨rfl, rfl, rfl, e2.1, e2.2⟩⟩
  · exact ⟨_, _, queues', e3, .inr ⟨i, x, e1.2.1, e2, rfl, e1.1, fun j => rfl, e1.2.2.1, e1.2.2.2⟩⟩

/-- The state is reached by rounds of the main loop. -/
def TyReach (D : ℕ → ℕ → ℚ) (d : ℕ → ℚ) (C L : Option ℚ) (N : ℕ) (endOnly all : Bool) (Fb : List ℕ) (s : TyState) : Prop :=
  Relation.ReflTransGen (fun a b => tyStep D d C L endOnly (route_end_interchange D d C L N all) a = .ok b)
    (tyStart D N Fb) s

theorem tyReach_inv {N : ℕ} {D : ℕ → ℕ → ℚ} {d : ℕ → ℚ} {C L : Option ℚ} {endOnly all : Bool} {Fb : List ℕ}
    (hN : 1 ≤ N) (hD : DistinctCustomers N D) {s : TyState} (h : TyReach D d C L N endOnly all Fb s) :
    ∃ done, TyInv N D d C L Fb done s := by
  induction h with
  | refl => exact ⟨[], tyStart_inv hN hD d C L Fb⟩
  | tail _ hs ih =>
    obtain ⟨done, ih⟩ := ih
    rcases tyStep_spec endOnly all ih with ⟨e, _⟩ | ⟨s', done', e, h', _⟩
    · rw [e] at hs; cases hs
    · rw [e] at hs; injection hs with hs; exact ⟨done', hs ▸ h'⟩

/-- **C53**, a round of the grouping: a new group is started with a free customer; or a free customer `n` is added at
the end of the group, or at its start if that is shorter (and not only the end is used), and the group then keeps the
limits; or it would not keep them, and the group is stored, as it is or with one customer exchanged for a free one so
that it is better. -/
theorem C53_round {N : ℕ} {D : ℕ → ℕ → ℚ} {d : ℕ → ℚ} {C L : Option ℚ} {endOnly all : Bool} {Fb : List ℕ}
    (hN : 1 ≤ N) (hD : DistinctCustomers N D) {s s' : TyState} (h : TyReach D d C L N endOnly all Fb s)
    (hs : tyStep D d C L endOnly (route_end_interchange D d C L N all) s = .ok s') :
    match s.route with
    | none => ∃ n, s.served n = false ∧ s'.sol = s.sol ∧ ∃ r', s'.route = some r' ∧ r'.nodes = [n] ∧
        ∀ j, s'.served j = if j = n then true else s.served j
    | some r => ∃ n w, s.served n = false ∧
        (w = r.nodes ++ [n] ∧ (endOnly = false → cost D (wrap w) ≤ cost D (wrap (n :: r.nodes))) ∨
          w = n :: r.nodes ∧ endOnly = false ∧ cost D (wrap w) < cost D (wrap (r.nodes ++ [n]))) ∧
        ((RouteOk D d C L w ∧ s'.sol = s.sol ∧ (∃ r', s'.route = some r' ∧ r'.nodes = w) ∧
            ∀ j, s'.served j = if j = n then true else s.served j) ∨
          (¬ RouteOk D d C L w ∧ s'.route = none ∧ ∃ v, s'.sol = s.sol ++ v ++ [0] ∧
            (v = r.nodes ∧ s'.served = s.served ∨ ∃ i x y, r.nodes[i]? = some x ∧ s.served y = false ∧
              v = r.nodes.set i y ∧ BetterGroup D d C L r.nodes v ∧
              ∀ j, s'.served j = if j = x then false else if j = y then true else s.served j))) := by
  obtain ⟨done, inv⟩ := tyReach_inv hN hD h
  cases hr : s.route with
  | none =>
    simp only
    unfold tyStep at hs
    rw [hr] at hs
    simp only at hs
    unfold tySeed at hs
    cases hk : keySkip s.served (s.queues 0).rest (s.queues 0).left with
    | none => rw [hk] at hs; cases hs
    | some p =>
      rw [hk] at hs
      injection hs with hs
      subst hs
      obtain ⟨k1, _⟩ := names_some (inv.q.len 0) (x := p.1) (p := p.2) hk
      exact ⟨p.1, k1, rfl, _, rfl, rfl, fun j => rfl⟩
  | some r =>
    simp only
    obtain ⟨g1, g2, g5, g6⟩ := inv.liveOk r hr
    obtain ⟨first, last, hf, hl⟩ := ends g1.1
    have hn : 0 < r.nodes.length := List.length_pos_of_ne_nil g1.1
    unfold tyStep at hs
    rw [hr] at hs
    simp only at hs
    rw [show idx r.nodes 0 = .ok first by rw [idx, ← List.head?_eq_getElem?, hf],
      show idxNeg r.nodes 1 = .ok last by
        rw [idxNeg, if_neg (by omega), idx, ← List.getLast?_eq_getElem?, hl]] at hs
    simp only at hs
    cases hk : keySkip s.served (s.queues r.prev).rest (s.queues r.prev).left with
    | none => rw [hk] at hs; cases hs
    | some p =>
      obtain ⟨n, pos⟩ := p
      rw [hk] at hs
      simp only at hs
      have hcur : ∀ y ∈ r.nodes, s.served y = true ∧ y ≠ 0 := by
        intro y hy
        have hm : y ∈ done.flatten ++ slotNodes s.route := by rw [hr]; exact List.mem_append_right _ hy
        exact ⟨(inv.served y).2 (.inr (.inr hm)), by have := inv.fresh y hm; omega⟩
      obtain ⟨n1, _⟩ := names_some (inv.q.len r.prev) hk
      obtain ⟨n0, nF, nn'⟩ := unserved_customer inv n1
      obtain ⟨w1, w2⟩ := wrap_extended (D := D) hf hl n
      unfold tyExtend at hs
      simp only at hs
      generalize hst : (!endOnly && decide (D 0 n + D n first + D last 0 < D 0 first + D last n + D n 0)) = atStart at hs
      have hw : ∃ w, w = (if atStart = true then n :: r.nodes else r.nodes ++ [n]) := ⟨_, rfl⟩
      obtain ⟨w, hw⟩ := hw
      have hwc : cost D (wrap w) = cost D r.nodes +
          if atStart = true then D 0 n + D n first + D last 0 else D 0 first + D last n + D n 0 := by
        subst hw
        cases atStart
        · simp only [Bool.false_eq_true, if_false]; rw [w2]; ring
        · simp only [if_true]; rw [w1]; ring
      have hwd : demand d w = demand d r.nodes + d n := by
        subst hw
        cases atStart
        · simp only [Bool.false_eq_true, if_false]; rw [demand_append]; simp
        · simp only [if_true]; rw [demand_cons]; ring
      refine ⟨n, w, n1, ?_, ?_⟩
      · subst hw
        cases atStart with
        | false =>
          refine .inl ⟨by simp, fun he => ?_⟩
          simp only [he, Bool.not_false, Bool.true_and, decide_eq_false_iff_not, not_lt] at hst
          simp only [Bool.false_eq_true, if_false]
          rw [w1, w2]; linarith
        | true =>
          simp only [Bool.and_eq_true, Bool.not_eq_true', decide_eq_true_eq] at hst
          refine .inr ⟨by simp, hst.1, ?_⟩
          simp only [if_true]
          rw [w1, w2]; linarith [hst.2]
      · by_cases hv : (exceeds C C_EPS (r.demand + d n) || exceeds L S_EPS (r.cost +
            if atStart = true then D 0 n + D n first + D last 0 else D 0 first + D last n + D n 0)) = true
        · rw [if_pos hv] at hs
          right
          refine ⟨fun hok => ?_, ?_⟩
          · rw [Bool.or_eq_true] at hv
            rcases hv with hv | hv
            · have ht : truthy C = true := by
                by_contra hh
                rw [truthy_iff] at hh
                have : exceeds C C_EPS (r.demand + d n) = false := by
                  rw [exceeds_iff]
                  intro c hc hc0
                  exact absurd ⟨c, hc, hc0⟩ hh
                rw [this] at hv; cases hv
              have := (exceeds_iff C C_EPS _).2 hok.1
              rw [hwd, ← g5 ht] at this
              rw [this] at hv; cases hv
            · have ht : truthy L = true := by
                by_contra hh
                rw [truthy_iff] at hh
                have : exceeds L S_EPS (r.cost +
                    if atStart = true then D 0 n + D n first + D last 0 else D 0 first + D last n + D n 0) = false := by
                  rw [exceeds_iff]
                  intro c hc hc0
                  exact absurd ⟨c, hc, hc0⟩ hh
                rw [this] at hv; cases hv
              have := (exceeds_iff L S_EPS _).2 hok.2
              rw [hwc, ← g6 ht] at this
              rw [this] at hv; cases hv
          · have hq1 := queues_skip (inv.q) (by rw [hr]; exact hcur) (by rw [hr]; exact g2) hk
            rw [hr] at hq1
            have hlm : last ∈ r.nodes := List.mem_of_getLast? hl
            have hnN : n < N := by
              obtain ⟨_, _, ⟨key, k3⟩, _, _⟩ := names_some (inv.q.len r.prev) hk
              exact (inv.q.key r.prev _ (List.mem_of_getElem? k3)).2
            obtain ⟨y, pos', hy⟩ : ∃ y pos', keySkip s.served (setLeft s.queues r.prev pos last).rest
                (setLeft s.queues r.prev pos last).left = some (y, pos') := by
              cases hh : keySkip s.served (setLeft s.queues r.prev pos last).rest (setLeft s.queues r.prev pos last).left with
              | none =>
                have := names_none hh n (hq1.inCur last hlm n (by omega) hnN n1)
                rw [n1] at this; cases this
              | some p => exact ⟨p.1, p.2, rfl⟩
            obtain ⟨y1, _, ⟨key, y3⟩, _, _⟩ := names_some (hq1.len last) hy
            have hposl := lt_of_getElem? y3
            have hwr := cost_wrap_split (D := D) hf hl
            rw [show [0] ++ r.nodes ++ [0] = wrap r.nodes by simp [wrap]] at hs
            rcases interchange_spec (D := D) (d := d) (C := C) (L := L) (N := N) (all := all) (u := r.nodes) (rd := r.demand)
                (rl := D 0 first + r.cost + D last 0) (fun hh => g5 (truthy_iff.2 hh))
                (fun hh => by rw [hwr, g6 (truthy_iff.2 hh)]) hl hq1.len (by omega) hy with
              ⟨e1, _⟩ | ⟨i, x, queues', e1, e2, e3, e4⟩
            · rw [e1] at hs
              injection hs with hs
              subst hs
              exact ⟨rfl, r.nodes, by simp [wrap], .inl ⟨rfl, rfl⟩⟩
            · rw [e3] at hs
              injection hs with hs
              subst hs
              exact ⟨rfl, r.nodes.set i y, by simp [wrap], .inr ⟨i, x, y, e2, y1, rfl, e1.1, fun j => rfl⟩⟩
        · rw [if_neg hv] at hs
          injection hs with hs
          subst hs
          simp only [Bool.or_eq_true, not_or, Bool.not_eq_true] at hv
          obtain ⟨v1, v2⟩ := hv
          refine .inl ⟨⟨?_, ?_⟩, rfl, ⟨_, rfl, ?_⟩, fun j => rfl⟩
          · rw [exceeds_iff] at v1
            intro c hc hc0
            rw [hwd, ← g5 (truthy_iff.2 ⟨c, hc, hc0⟩)]
            exact v1 c hc hc0
          · rw [exceeds_iff] at v2
            intro c hc hc0
            rw [hwc, ← g6 (truthy_iff.2 ⟨c, hc, hc0⟩)]
            exact v2 c hc hc0
          · rw [hw]; cases atStart <;> rfl

/-- What is left of a vehicle when the others are full is less than the demand of any customer. -/
def MaySingle (N : ℕ) (d : ℕ → ℚ) (c : ℚ) : Prop :=
  ∀ n, 1 ≤ n → n < N → d n > demand d (List.range N) - c * (⌈demand d (List.range N) / c⌉ - 1)

/-- The customers that are tried on a route of their own. -/
def SingleCandidate (N : ℕ) (D : ℕ → ℕ → ℚ) (d : ℕ → ℚ) (c : ℚ) (large : Bool) (us : List (List ℕ)) (n : ℕ) : Prop :=
  1 ≤ n ∧ n < N ∧ (MaySingle N d c ∨ ∃ u ∈ us, u.length = 1) ∧
    (large = true → d n > 1 / 2 * c ∧ ∃ m < N, D 0 n < 1 / 2 * D 0 m)

theorem tyMayHaveSingle_spec {N : ℕ} (hN : 2 ≤ N) (d : ℕ → ℚ) (c : ℚ) :
    ∃ b, tyMayHaveSingle d c N = .ok b ∧ (b = true ↔ MaySingle N d c) := by
  unfold tyMayHaveSingle
  have hne : (pyRange 1 N).map d ≠ [] := by
    intro h
    have := congrArg List.length h
    simp [pyRange] at this
    omega
  simp only
  obtain ⟨m, hm⟩ := Option.isSome_iff_exists.1 (List.isSome_min?_of_ne_nil hne)
  rw [hm]
  refine ⟨_, rfl, ?_⟩
  obtain ⟨m1, m2⟩ := List.min?_eq_some_iff.1 hm
  rw [decide_eq_true_eq, MaySingle, ← demand_eq_sum]
  constructor
  · intro h n n1 n2
    have := m2 (d n) (List.mem_map.2 ⟨n, by rw [pyRange, List.mem_range'_1]; omega, rfl⟩)
    linarith
  · intro h
    obtain ⟨n, hn, rfl⟩ := List.mem_map.1 m1
    rw [pyRange, List.mem_range'_1] at hn
    exact h n (by omega) (by omega)

theorem tySingles_spec {N : ℕ} (hN : 1 ≤ N) (D : ℕ → ℕ → ℚ) (d : ℕ → ℚ) (c : ℚ) (large : Bool) :
    ∃ ns, tySingles D d c N large = .ok ns ∧ ∀ n, n ∈ ns ↔ 1 ≤ n ∧ n < N ∧
      (large = true → d n > 1 / 2 * c ∧ ∃ m < N, D 0 n < 1 / 2 * D 0 m) := by
  unfold tySingles
  cases large with
  | false =>
    refine ⟨_, rfl, fun n => ?_⟩
    rw [pyRange, List.mem_range'_1]
    simp only [Bool.false_eq_true, false_implies, and_true]
    omega
  | true =>
    simp only [if_true]
    have hne : (List.range N).map (D 0) ≠ [] := by
      intro h
      have := congrArg List.length h
      simp at this
      omega
    obtain ⟨m, hm⟩ := Option.isSome_iff_exists.1 (List.isSome_max?_of_ne_nil hne)
    rw [hm]
    obtain ⟨m1, m2⟩ := List.max?_eq_some_iff.1 hm
    refine ⟨_, rfl, fun n => ?_⟩
    simp only [List.mem_filter, pyRange, List.mem_range'_1, Bool.and_eq_true, decide_eq_true_eq, true_implies]
    constructor
    · rintro ⟨h1, h2, h3⟩
      obtain ⟨k, hk, rfl⟩ := List.mem_map.1 m1
      exact ⟨by omega, by omega, h2, k, List.mem_range.1 hk, h3⟩
    · rintro ⟨h1, h2, h3, k, k1, k2⟩
      refine ⟨by omega, h3, ?_⟩
      have := m2 (D 0 k) (List.mem_map.2 ⟨k, List.mem_range.2 k1, rfl⟩)
      linarith

theorem allowed_nil (N : ℕ) : allowed N [] = List.range' 1 (N - 1) := by simp [allowed]

theorem range_ne_nil {N : ℕ} (hN : 2 ≤ N) : List.range' 1 (N - 1) ≠ [] := by
  intro e; have := congrArg List.length e; simp at this; omega

theorem groups_customers {N : ℕ} {Fb : List ℕ} {us : List (List ℕ)} (h : us.flatten.Perm (allowed N Fb)) :
    ∀ u ∈ us, ∀ x ∈ u, 1 ≤ x ∧ x < N := by
  intro u hu x hx
  have := h.mem_iff.1 (List.mem_flatten.2 ⟨u, hu, hx⟩)
  simp only [allowed, List.mem_filter, List.mem_range'_1] at this
  omega

theorem groups_nodup {N : ℕ} {Fb : List ℕ} {us : List (List ℕ)} (h : us.flatten.Perm (allowed N Fb)) :
    ∀ u ∈ us, u.Nodup := by
  have : us.flatten.Nodup := h.nodup_iff.2 ((List.nodup_range' (step := 1)).filter _)
  exact fun u hu => (List.nodup_flatten.1 this).1 u hu

/-- A grouping without `n`, and `n` alone. -/
theorem groups_single {N n : ℕ} {us : List (List ℕ)} (h : us.flatten.Perm (allowed N [n])) (h1 : 1 ≤ n) (h2 : n < N) :
    (us ++ [[n]]).flatten.Perm (allowed N []) := by
  rw [flatten_concat]
  refine (h.append_right [n]).trans ?_
  refine (List.perm_ext_iff_of_nodup ?_ ((List.nodup_range' (step := 1)).filter _)).2 fun x => ?_
  · refine List.nodup_append.2 ⟨(List.nodup_range' (step := 1)).filter _, by simp, ?_⟩
    intro a ha b hb e
    simp only [List.mem_singleton] at hb
    simp [allowed] at ha
    exact ha.2 (e.trans hb)
  · simp only [allowed, List.mem_append, List.mem_filter, List.mem_range'_1, List.mem_singleton]
    by_cases hx : x = n
    · simp [hx]; omega
    · simp [hx]

/-- The routes in the end are the groups in another order, and keep the limits with a routine that makes no route
longer. -/
theorem routed_solves {N : ℕ} {D : ℕ → ℕ → ℚ} {d : ℕ → ℚ} {C L : Option ℚ} {tsp : Router} (hW : NoWorse D tsp)
    {us vs : List (List ℕ)} (hp : us.flatten.Perm (allowed N [])) (hg : ∀ u ∈ us, NNGood N D d C L u)
    (h : List.Forall₂ (fun v u => v.Perm u ∧ tsp (0 :: u) = (wrap v, cost D (wrap v))) vs us) :
    Solves N D d C L (tour vs) := by
  have hz := groups_customers hp
  have hnd := groups_nodup hp
  have h1 : vs.flatten.Perm us.flatten := by
    clear hp hg hz hnd
    induction h with
    | nil => exact List.Perm.refl _
    | cons h _ ih => simpa using h.1.append ih
  refine solves_good (h1.trans (by rw [← allowed_nil]; exact hp)) fun v hv => ?_
  obtain ⟨i, hi, rfl⟩ := List.getElem_of_mem hv
  have hlen := h.length_eq
  have hr := h.get hi (hlen ▸ hi)
  simp only [List.get_eq_getElem] at hr
  have hu : us[i] ∈ us := List.getElem_mem _
  generalize us[i] = u at hr hu
  generalize vs[i] = v at hr
  obtain ⟨g1, g2⟩ := hg u hu
  refine ⟨fun e => ?_, fun hs => ?_⟩
  · rw [e] at hr; exact g1 hr.1.symm.eq_nil
  · obtain ⟨r1, r2⟩ := g2 hs
    have hw := hW u g1 (List.nodup_cons.2 ⟨fun h0 => by have := hz u hu 0 h0; omega, hnd u hu⟩)
    rw [hr.2] at hw
    refine ⟨?_, fun c hc hc0 => ?_⟩
    · rw [demand_perm d hr.1]; exact r1
    · exact le_trans hw (r2 c hc hc0)

/-- **C53**, the choice of the grouping with a capacity: the heuristic ends; its routes are those of one grouping, each
in an order found by the routine for the travelling salesman. That grouping is either the first one, or one in which a
customer `n` is served alone and the others are grouped without it, in no more routes than the first grouping has.
Among all of these (for the candidates `n`, see `SingleCandidate`) it has the greatest value, and the first one is
only given up for a greater one. Every value of the variable that an interrupt hands out is one of these groupings. -/
theorem C53_choice {N : ℕ} {D : ℕ → ℕ → ℚ} {d : ℕ → ℚ} {c : ℚ} (L : Option ℚ) (large all : Bool) {sel : TySelect}
    {tsp : Router} (hN : 3 ≤ N) (hD : DistinctCustomers N D) (h0 : d 0 = 0) (hc : c ≠ 0) (hs : sel ≠ .other)
    (ht : TspRoutine D tsp) :
    ∃ (us : List (List ℕ)) (grp : ℕ → List (List ℕ)),
      (us.flatten.Perm (allowed N []) ∧ ∀ u ∈ us, NNGood N D d (some c) L u) ∧
      (∀ n, (grp n).flatten.Perm (allowed N [n]) ∧ ∀ u ∈ grp n, NNGood N D d (some c) L u) ∧
      ∃ (bs vs : List (List ℕ)) (w : ℚ × ℚ) (seen : List (List ℕ)),
        ((bs = us ∧ w = groupValue D d c sel us us.length) ∨
          ∃ n, SingleCandidate N D d c large us n ∧ (grp n).length + 1 ≤ us.length ∧ bs = grp n ++ [[n]] ∧
            w = groupValue D d c sel (grp n) ((grp n).length + 1) ∧ PairLt (groupValue D d c sel us us.length) w) ∧
        (∀ n, SingleCandidate N D d c large us n → (grp n).length + 1 ≤ us.length →
          ¬ PairLt w (groupValue D d c sel (grp n) ((grp n).length + 1))) ∧
        List.Forall₂ (fun v u => v.Perm u ∧ tsp (0 :: u) = (wrap v, cost D (wrap v))) vs bs ∧
        (tour bs ∈ seen ∧ ∀ v ∈ seen, v = tour us ∨ ∃ n, SingleCandidate N D d c large us n ∧ v = tour (grp n ++ [[n]])) ∧
        ∃ F, ∀ fuel ≥ F,
          nn_with_callback D d (some c) L N true [] (route_end_interchange D d (some c) L N all) fuel =
            .ok (some (some (tour us))) ∧
          (∀ n, 1 ≤ n → n < N → nn_with_callback D d (some c) L N false [n] (route_end_interchange D d (some c) L N all)
            fuel = .ok (some (some (tour (grp n))))) ∧
          tyagi_init D d (some c) L N large all sel tsp fuel = .ok (some (some (tour vs), seen)) := by
  obtain ⟨us, u1, u2, u3⟩ := grouping_spec d (some c) L true all [] (by omega) hD
  choose grp p1 p2 p3 using fun n => grouping_spec d (some c) L false all [n] (N := N) (by omega) hD
  have hus : us ≠ [] := by
    rintro rfl
    rw [allowed_nil] at u1
    exact range_ne_nil (by omega) u1.symm.eq_nil
  have hgr : ∀ n, 1 ≤ n → n < N → grp n ≠ [] := by
    intro n n1 n2 e
    have hp := p1 n
    rw [e] at hp
    have hm : (if n = 1 then 2 else 1) ∈ allowed N [n] := by
      simp only [allowed, List.mem_filter, List.mem_range'_1]
      split_ifs <;> simp <;> omega
    rw [hp.symm.eq_nil] at hm
    cases hm
  have cz : ∀ u ∈ us, u ≠ [] ∧ ∀ x ∈ u, x ≠ 0 := fun u hu =>
    ⟨(u2 u hu).1, fun x hx => by have := groups_customers u1 u hu x hx; omega⟩
  have gz : ∀ n, ∀ u ∈ grp n, u ≠ [] ∧ ∀ x ∈ u, x ≠ 0 := fun n u hu =>
    ⟨(p2 n u hu).1, fun x hx => by have := groups_customers (p1 n) u hu x hx; omega⟩
  obtain ⟨b0, m1, m2⟩ := tyMayHaveSingle_spec (N := N) (by omega) d c
  obtain ⟨ns, n1, n2⟩ := tySingles_spec (N := N) (by omega) D d c large
  have hcond : (b0 || decide (((us.map wrap).filter fun r => r.length = 3).length > 0)) = true ↔
      (MaySingle N d c ∨ ∃ u ∈ us, u.length = 1) := by
    rw [Bool.or_eq_true, m2, decide_eq_true_eq]
    apply or_congr Iff.rfl
    rw [gt_iff_lt, List.length_pos_iff_exists_mem]
    simp only [List.mem_filter, List.mem_map, decide_eq_true_eq]
    constructor
    · rintro ⟨r, ⟨u, hu, rfl⟩, hr⟩
      exact ⟨u, hu, by simpa [wrap] using hr⟩
    · rintro ⟨u, hu, hr⟩
      exact ⟨wrap u, ⟨u, hu, rfl⟩, by simp [wrap, hr]⟩
  have hcount : (tour us).count 0 - 1 = us.length := by
    rw [count_depots fun u hu => (cz u hu).2]; omega
  have hutil : tyUtilization D d c sel us.length us.length (tour us) = .ok (groupValue D d c sel us us.length) :=
    tyUtilization_spec h0 c hs cz us.length
  have hlen : (sol2routes (tour us)).length = us.length := by rw [sol2routes_tour cz, List.length_map]
  generalize hF : N * (N + 2) + N + 1 = F at *
  -- the loop over the candidates
  have key : ∃ b : TyBest, (∀ fuel ≥ F, tyGrouping D d c L N large all sel b0 fuel (tour us) = .ok (some b)) ∧
      ((b.sol = tour us ∧ b.util = groupValue D d c sel us us.length) ∨
        ∃ n, SingleCandidate N D d c large us n ∧ (grp n).length + 1 ≤ us.length ∧ b.sol = tour (grp n ++ [[n]]) ∧
          b.util = groupValue D d c sel (grp n) ((grp n).length + 1) ∧
          PairLt (groupValue D d c sel us us.length) b.util) ∧
      (∀ n, SingleCandidate N D d c large us n → (grp n).length + 1 ≤ us.length →
        ¬ PairLt b.util (groupValue D d c sel (grp n) ((grp n).length + 1))) ∧
      ∀ v ∈ b.seen, v = tour us ∨ ∃ n, SingleCandidate N D d c large us n ∧ v = tour (grp n ++ [[n]]) := by
    by_cases hcd : (b0 || decide (((us.map wrap).filter fun r => r.length = 3).length > 0)) = true
    · have hns : ∀ n, n ∈ ns ↔ SingleCandidate N D d c large us n := by
        intro n
        rw [n2, SingleCandidate]
        have := hcond.1 hcd
        tauto
      have run : ∀ fuel ≥ F, ∀ n ∈ ns, nn_with_callback D d (some c) L N false [n]
          (route_end_interchange D d (some c) L N all) fuel = .ok (some (some (tour (grp n)))) ∧
          ∀ u ∈ grp n, u ≠ [] ∧ ∀ x ∈ u, x ≠ 0 := by
        intro fuel hf n hn
        have := (n2 n).1 hn
        rw [p3 n fuel (by omega), if_neg (hgr n this.1 this.2.1)]
        exact ⟨rfl, gz n⟩
      obtain ⟨b, e1, e2, e3, e4, e5⟩ := tyCandidates_spec (D := D) h0 c L N (route_end_interchange D d (some c) L N all) hs
        us.length F grp ns (run F le_rfl) ⟨tour us, groupValue D d c sel us us.length, []⟩
      refine ⟨b, fun fuel hf => ?_, ?_, ?_, ?_⟩
      · have hst : tyCandidates D d c L N (route_end_interchange D d (some c) L N all) sel us.length fuel ns
            ⟨tour us, groupValue D d c sel us us.length, []⟩ = .ok (some b) := by
          rw [← e1]
          have : ∀ (ms : List ℕ) (b : TyBest), (∀ n ∈ ms, n ∈ ns) →
              tyCandidates D d c L N (route_end_interchange D d (some c) L N all) sel us.length fuel ms b =
              tyCandidates D d c L N (route_end_interchange D d (some c) L N all) sel us.length F ms b := by
            intro ms
            induction ms with
            | nil => intro b _; rfl
            | cons n ms ih =>
              intro b hm
              rw [tyCandidates, tyCandidates, (run fuel hf n (hm n (by simp))).1, (run F le_rfl n (hm n (by simp))).1]
              simp only
              cases tyCandidate D d c sel us.length n (some (tour (grp n))) b with
              | error e => rfl
              | ok b => exact ih b fun m hm' => hm m (by simp [hm'])
          exact this ns _ fun n hn => hn
        unfold tyGrouping
        simp only
        rw [hlen, hutil]
        simp only
        rw [sol2routes_tour cz, if_pos hcd, n1]
        simp only
        rw [hcount]
        exact hst
      · rcases e2 with rfl | ⟨n, f1, f2, f3, f4⟩
        · exact .inl ⟨rfl, rfl⟩
        · exact .inr ⟨n, (hns n).1 f1.1, f1.2, f2, f3, f4⟩
      · exact fun n hn hl => e4 n ⟨(hns n).2 hn, hl⟩
      · intro v hv
        rcases e5 v hv with f | f | ⟨n, f1, f2⟩
        · cases f
        · exact .inl f
        · exact .inr ⟨n, (hns n).1 f1, f2⟩
    · refine ⟨⟨tour us, groupValue D d c sel us us.length, []⟩, fun fuel hf => ?_, .inl ⟨rfl, rfl⟩, fun n hn => ?_, by simp⟩
      · unfold tyGrouping
        simp only
        rw [hlen, hutil]
        simp only
        rw [sol2routes_tour cz, if_neg hcd]
      · exact absurd (hcond.2 hn.2.2.1) hcd
  obtain ⟨b, k1, k2, k3, k4⟩ := key
  obtain ⟨bs, hb1, hb2, hb3, hb4⟩ : ∃ bs : List (List ℕ), b.sol = tour bs ∧ bs ≠ [] ∧
      bs.flatten.Perm (allowed N []) ∧ ((bs = us ∧ b.util = groupValue D d c sel us us.length) ∨
        ∃ n, SingleCandidate N D d c large us n ∧ (grp n).length + 1 ≤ us.length ∧ bs = grp n ++ [[n]] ∧
          b.util = groupValue D d c sel (grp n) ((grp n).length + 1) ∧
          PairLt (groupValue D d c sel us us.length) b.util) := by
    rcases k2 with ⟨e1, e2⟩ | ⟨n, f1, f2, f3, f4⟩
    · exact ⟨us, e1, hus, u1, .inl ⟨rfl, e2⟩⟩
    · exact ⟨_, f3, by simp, groups_single (p1 n) f1.1 f1.2.1, .inr ⟨n, f1, f2, rfl, f4⟩⟩
  have bz : ∀ u ∈ bs, u ≠ [] ∧ ∀ x ∈ u, x ≠ 0 := by
    refine fun u hu => ⟨?_, fun x hx => by have := groups_customers hb3 u hu x hx; omega⟩
    rcases hb4 with ⟨rfl, _⟩ | ⟨n, _, _, rfl, _⟩
    · exact (cz u hu).1
    · rcases List.mem_append.1 hu with hu | hu
      · exact (gz n u hu).1
      · rw [List.mem_singleton.1 hu]; simp
  obtain ⟨vs, v1, v2⟩ := tyRouting_spec ht hb2 bz (groups_nodup hb3)
  refine ⟨us, grp, ⟨u1, u2⟩, fun n => ⟨p1 n, p2 n⟩, bs, vs, b.util, b.seen ++ [b.sol], hb4, k3, v2, ⟨?_, ?_⟩, F, fun fuel hf => ⟨?_, ?_, ?_⟩⟩
  · rw [hb1]; simp
  · intro v hv
    rcases List.mem_append.1 hv with hv | hv
    · exact k4 v hv
    · rw [List.mem_singleton.1 hv, hb1]
      rcases hb4 with ⟨rfl, _⟩ | ⟨n, f1, _, rfl, _⟩
      · exact .inl rfl
      · exact .inr ⟨n, f1, rfl⟩
  · rw [u3 fuel (by omega), if_neg hus]
  · intro n n1 n2
    rw [p3 n fuel (by omega), if_neg (hgr n n1 n2)]
  · unfold tyagi_init
    simp only
    rw [if_neg hc, m1, u3 fuel (by omega), if_neg hus]
    simp only
    rw [k1 fuel hf]
    simp only
    rw [hb1, v1]

/-- **C53** (partial: customers with the distance 0 to another node, and a single customer with a capacity, are left out; both are shown
to fail below). The heuristic ends with a complete solution that keeps the limits if every customer alone does and the
routine for the travelling salesman makes no route longer. The same holds for what an interrupt after the first
grouping hands out. -/
theorem C53_partial {N : ℕ} {D : ℕ → ℕ → ℚ} {d : ℕ → ℚ} (C L : Option ℚ) (large all : Bool) {sel : TySelect}
    {tsp : Router} (hN : 2 ≤ N) (hone : InUse C → 3 ≤ N) (hD : DistinctCustomers N D) (h0 : d 0 = 0)
    (hs : InUse C → sel ≠ .other) (ht : TspRoutine D tsp) (hW : NoWorse D tsp) :
    ∃ sol seen, Solves N D d C L sol ∧ seen ≠ [] ∧ (∀ v ∈ seen, Solves N D d C L v) ∧
      ∃ F, ∀ fuel ≥ F, tyagi_init D d C L N large all sel tsp fuel = .ok (some (some sol, seen)) := by
  by_cases hC : InUse C
  · obtain ⟨c, rfl, hc⟩ := hC
    obtain ⟨us, grp, ⟨u1, u2⟩, hg, bs, vs, w, seen, e1, e2, e3, ⟨e4, e5⟩, F, e6⟩ :=
      C53_choice (d := d) L large all (hone ⟨c, rfl, hc⟩) hD h0 hc (hs ⟨c, rfl, hc⟩) ht
    have hsingle : ∀ n, SingleCandidate N D d c large us n →
        (grp n ++ [[n]]).flatten.Perm (allowed N []) ∧ ∀ u ∈ grp n ++ [[n]], NNGood N D d (some c) L u := by
      intro n hn
      refine ⟨groups_single (hg n).1 hn.1 hn.2.1, fun u hu => ?_⟩
      rcases List.mem_append.1 hu with hu | hu
      · exact (hg n).2 u hu
      · rw [List.mem_singleton.1 hu]
        exact ⟨by simp, fun hs => hs n hn.1 hn.2.1⟩
    refine ⟨tour vs, seen, ?_, List.ne_nil_of_mem e4, fun v hv => ?_, F, fun fuel hf => (e6 fuel hf).2.2⟩
    · rcases e1 with ⟨rfl, _⟩ | ⟨n, f1, _, rfl, _⟩
      · exact routed_solves hW u1 u2 e3
      · exact routed_solves hW (hsingle n f1).1 (hsingle n f1).2 e3
    · rcases e5 v hv with rfl | ⟨n, f1, rfl⟩
      · exact solves_good (by rw [← allowed_nil]; exact u1) u2
      · exact solves_good (by rw [← allowed_nil]; exact (hsingle n f1).1) (hsingle n f1).2
  · obtain ⟨us, u1, u2, u3⟩ := grouping_spec d C L true all [] (N := N) (by omega) hD
    have hus : us ≠ [] := by
      rintro rfl
      rw [allowed_nil] at u1
      exact range_ne_nil hN u1.symm.eq_nil
    have cz : ∀ u ∈ us, u ≠ [] ∧ ∀ x ∈ u, x ≠ 0 := fun u hu =>
      ⟨(u2 u hu).1, fun x hx => by have := groups_customers u1 u hu x hx; omega⟩
    obtain ⟨vs, v1, v2⟩ := tyRouting_spec ht hus cz (groups_nodup u1)
    refine ⟨tour vs, [tour us], routed_solves hW u1 u2 v2, by simp, fun v hv => ?_, N * (N + 2) + N + 1, fun fuel hf => ?_⟩
    · rw [List.mem_singleton.1 hv]
      exact solves_good (by rw [← allowed_nil]; exact u1) u2
    · unfold tyagi_init
      simp only
      rw [u3 fuel (by omega), if_neg hus]
      cases C with
      | none => simp only; rw [v1]
      | some c =>
        have hc : c = 0 := by
          by_contra hc
          exact hC ⟨c, rfl, hc⟩
        simp only
        rw [if_pos hc, v1]

/-- **C53**: with a capacity and the default choice of candidates, a single customer is an `AttributeError`: the
grouping without that customer is `None`, and its routes are counted all the same. -/
theorem C53_single_customer {D : ℕ → ℕ → ℚ} {d : ℕ → ℚ} {c : ℚ} (L : Option ℚ) (all : Bool) {sel : TySelect}
    (tsp : Router) (hD : DistinctCustomers 2 D) (h0 : d 0 = 0) (hc : c ≠ 0) (hs : sel ≠ .other) :
    ∃ F, ∀ fuel ≥ F, tyagi_init D d (some c) L 2 false all sel tsp fuel = .error .attributeError := by
  obtain ⟨us, u1, u2, u3⟩ := grouping_spec d (some c) L true all [] (N := 2) (by omega) hD
  obtain ⟨vs, v1, v2, v3⟩ := grouping_spec d (some c) L false all [1] (N := 2) (by omega) hD
  obtain ⟨b0, m1, _⟩ := tyMayHaveSingle_spec (N := 2) (by omega) d c
  have hvs : vs = [] := by
    have : allowed 2 [1] = [] := by decide
    rw [this] at v1
    cases vs with
    | nil => rfl
    | cons v vs =>
      have := v1.eq_nil
      simp only [List.flatten_cons, List.append_eq_nil_iff] at this
      exact absurd this.1 (v2 v (by simp)).1
  have hus : us = [[1]] := by
    have : allowed 2 [] = [1] := by decide
    rw [this] at u1
    have e := List.perm_singleton.1 u1
    match us, u2, e with
    | [], _, e => simp at e
    | [u], _, e => simpa using e
    | u :: v :: t, u2, e =>
      have h1 := (u2 u (by simp)).1
      have h2 := (u2 v (by simp)).1
      have := congrArg List.length e
      simp only [List.flatten_cons, List.length_append, List.length_singleton] at this
      have := List.length_pos_of_ne_nil h1
      have := List.length_pos_of_ne_nil h2
      omega
  subst hvs hus
  refine ⟨2 * (2 + 2) + 2 + 1, fun fuel hf => ?_⟩
  have hz : ∀ u ∈ [[1]], u ≠ [] ∧ ∀ x ∈ u, x ≠ 0 := by simp
  unfold tyagi_init
  simp only
  rw [if_neg hc, m1, u3 fuel (by omega)]
  simp only [List.cons_ne_nil, if_false]
  unfold tyGrouping
  simp only
  rw [sol2routes_tour hz]
  have := tyUtilization_spec (D := D) h0 c hs hz 1
  simp only [List.length_singleton] at this
  simp only [List.map_cons, List.map_nil, List.length_singleton]
  rw [this]
  simp only
  rw [if_pos (by simp [wrap])]
  unfold tySingles
  simp only [Bool.false_eq_true, if_false]
  rw [show pyRange 1 2 = [1] from rfl, tyCandidates, v3 fuel (by omega)]
  rfl

/-- **C53**: without any customer the result is `None`, or a `ValueError` if a capacity is set. -/
theorem C53_no_customers (D : ℕ → ℕ → ℚ) (d : ℕ → ℚ) (C L : Option ℚ) (large all : Bool) (sel : TySelect) (tsp : Router)
    {fuel : ℕ} (hf : 1 ≤ fuel) :
    tyagi_init D d C L 1 large all sel tsp fuel = if truthy C then .error .valueError else .ok (some (none, [])) := by
  obtain ⟨f, rfl⟩ : ∃ f, fuel = f + 1 := ⟨fuel - 1, by omega⟩
  have e : ∀ C', nn_with_callback D d C' L 1 true [] (route_end_interchange D d C' L 1 all) (f + 1) = .ok (some none) := by
    intro C'
    rfl
  unfold tyagi_init
  simp only
  rw [e]
  cases C with
  | none => rfl
  | some c =>
    by_cases hc : c = 0
    · simp [hc, truthy]
    · simp only [if_neg hc]
      simp [tyMayHaveSingle, pyRange, truthy, hc]

/-- **C53**: an unknown way to select the grouping is refused, but only if there is a capacity. -/
theorem C53_unknown {N : ℕ} {D : ℕ → ℕ → ℚ} (d : ℕ → ℚ) {c : ℚ} (L : Option ℚ) (large all : Bool)
    (tsp : Router) (hN : 2 ≤ N) (hD : DistinctCustomers N D) (hc : c ≠ 0) :
    ∃ F, ∀ fuel ≥ F, tyagi_init D d (some c) L N large all .other tsp fuel = .error .valueError := by
  obtain ⟨us, u1, u2, u3⟩ := grouping_spec d (some c) L true all [] (N := N) (by omega) hD
  obtain ⟨b0, m1, _⟩ := tyMayHaveSingle_spec hN d c
  have hus : us ≠ [] := by
    rintro rfl
    rw [allowed_nil] at u1
    exact range_ne_nil hN u1.symm.eq_nil
  refine ⟨N * (N + 2) + N + 1, fun fuel hf => ?_⟩
  unfold tyagi_init
  simp only
  rw [if_neg hc, m1, u3 fuel (by omega), if_neg hus]
  rfl

/-- Distances of an instance with three customers. -/
def tyD : ℕ → ℕ → ℚ := fun i j =>
  ([[0, 2, 2, 3], [2, 0, 4, 1], [2, 4, 0, 5], [3, 1, 5, 0]] : List (List ℚ)).getD i [] |>.getD j 0

def tyd : ℕ → ℚ := fun i => ([0, 5, 2, 2] : List ℚ).getD i 0

/-- A routine that keeps the order. -/
def keepOrder (D : ℕ → ℕ → ℚ) : Router := fun l => (l ++ [0], cost D (l ++ [0]))

theorem keepOrder_routine (D : ℕ → ℕ → ℚ) : TspRoutine D (keepOrder D) ∧ NoWorse D (keepOrder D) :=
  ⟨fun t _ _ => ⟨t, List.Perm.refl _, rfl⟩, fun _ _ _ => le_refl _⟩

/-- The free capacity of the routes times their length, which "min_penalty" is documented to make small. -/
def freePenalty (D : ℕ → ℕ → ℚ) (d : ℕ → ℚ) (c : ℚ) (us : List (List ℕ)) : ℚ :=
  (us.map fun u => (c - demand d u) * cost D (wrap u)).sum

/-- **C53**, a documented claim that is false: "min_penalty" does not select the grouping whose routes with free capacity
are shortest. Here it gives up a grouping with the penalty 20 for one with 38. -/
theorem C53_penalty_false :
    nn_with_callback tyD tyd (some 7) none 4 true [] (route_end_interchange tyD tyd (some 7) none 4 true) 30 =
        .ok (some (some (tour [[1, 3], [2]]))) ∧
      tyagi_init tyD tyd (some 7) none 4 false true .minPenalty (keepOrder tyD) 30 =
        .ok (some (some (tour [[2, 3], [1]]), [tour [[1, 3], [2]], tour [[2, 3], [1]]])) ∧
      freePenalty tyD tyd 7 [[1, 3], [2]] = 20 ∧ freePenalty tyD tyd 7 [[2, 3], [1]] = 38 := by
  decide +kernel

/-- **C53**, a claim of a comment that is false: the interchange does not "keep the best improving". Here the free customer
3 is put in the place of 2, with the demand 5, though in the place of 1 the demand would be 6. -/
theorem C53_best_false :
    (route_end_interchange (fun i j => if i = j then 0 else 1) (fun n => n) (some 5) none 4 true (wrap [1, 2]) 3 0
        (fun n => decide (n < 3)) (keyQueue (fun i j => if i = j then 0 else 1) 4)).map (·.1) = .ok (wrap [1, 3]) ∧
      BetterGroup (fun i j => if i = j then 0 else 1) (fun n => n) (some 5) none [1, 2] [3, 2] ∧
      demand (fun n => (n : ℚ)) [1, 3] < demand (fun n => (n : ℚ)) [3, 2] := by
  refine ⟨by decide +kernel, ?_, by decide +kernel⟩
  refine ⟨⟨?_, fun c hc => by cases hc⟩, .inl ⟨⟨5, rfl, by norm_num⟩, by decide +kernel⟩⟩
  intro c hc _
  injection hc with hc
  subst hc
  decide +kernel

example : DistinctCustomers 4 tyD ∧ Serviceable 4 tyD tyd (some 7) none ∧ tyd 0 = 0 := by
  refine ⟨⟨?_, ?_, ?_⟩, ?_, rfl⟩
  · intro i j h1 h2 h3 h4 h5
    interval_cases i <;> interval_cases j <;> first | exact absurd rfl h5 | decide +kernel
  · intro i h1 h2
    interval_cases i <;> decide +kernel
  · intro j h1 h2
    interval_cases j <;> decide +kernel
  · intro n h1 h2
    refine ⟨fun c hc _ => ?_, fun c hc => by cases hc⟩
    injection hc with hc
    subst hc
    interval_cases n <;> decide +kernel

/-- Distances that are rounded down: customers 1 and 2 have the distance 0, and 2 is nearer to the depot. -/
def tyRounded (i j : ℕ) : ℚ := if i = 0 ∧ j = 0 then 0 else if i = 0 ∨ j = 0 then if i = 1 ∨ j = 1 then 2 else 1 else 0

/-- **C53 is false** with a distance 0 between customers: the list of the neighbours of 2 leaves out its first entry, which
is 1, and so customer 1 is never served. -/
theorem C53_zero_distance_false :
    tyagi_init tyRounded (fun _ => 0) none none 3 true true .balanced (keepOrder tyRounded) 30 =
      .ok (some (some [0, 2, 0], [[0, 2, 0]])) ∧ ¬ Covers 3 [0, 2, 0] := by
  refine ⟨by decide +kernel, fun h => ?_⟩
  have := h.length_eq
  revert this
  decide +kernel

/-- The distances of the points (6, 0), (6, 7), (4, 5), (7, 3) and (3, 1). -/
def tySeedD : ℕ → ℕ → ℚ := fun i j =>
  ([[0, 7, 7, 4, 4], [7, 0, 4, 5, 9], [7, 4, 0, 5, 5], [4, 5, 5, 0, 6], [4, 9, 5, 6, 0]] : List (List ℚ)).getD i [] |>.getD j 0

def tySeedDemand : ℕ → ℚ := fun i => ([0, 8, 9, 1, 8] : List ℚ).getD i 0

/-- Some rounds of the main loop. -/
def tyIter (f : TyState → Py TyState) : ℕ → TyState → Option TyState
  | 0, s => some s
  | k + 1, s =>
    match f s with
    | .ok t => tyIter f k t
    | .error _ => none

theorem tyIter_reach {f : TyState → Py TyState} {k : ℕ} {s t : TyState} (h : tyIter f k s = some t) :
    Relation.ReflTransGen (fun a b => f a = .ok b) s t := by
  induction k generalizing s with
  | zero => injection h with h; subst h; exact .refl
  | succ k ih =>
    rw [tyIter] at h
    cases hf : f s with
    | error e => rw [hf] at h; cases h
    | ok u => rw [hf] at h; exact .head hf (ih h)

/-- **C53**, a documented claim that is false: a group does not start with the free customer that is nearest to the depot.
After an interchange customer 1, which is free again, is the start, though 4 is free and nearer. -/
theorem C53_seed_false : ∃ s s', TyReach tySeedD tySeedDemand (some 12) none 5 true true [] s ∧
    tyStep tySeedD tySeedDemand (some 12) none true (route_end_interchange tySeedD tySeedDemand (some 12) none 5 true) s =
      .ok s' ∧
    s.route = none ∧ s.served 1 = false ∧ s.served 4 = false ∧ s'.route.map (·.nodes) = some [1] ∧
    tySeedD 0 4 < tySeedD 0 1 := by
  have e0 : (tyIter (tyStep tySeedD tySeedDemand (some 12) none true
      (route_end_interchange tySeedD tySeedDemand (some 12) none 5 true)) 3 (tyStart tySeedD 5 [])).map (fun s =>
        ((s.route.isSome || s.served 1 || s.served 4, (tyStep tySeedD tySeedDemand (some 12) none true
          (route_end_interchange tySeedD tySeedDemand (some 12) none 5 true) s).toOption.map fun s' =>
            s'.route.map (·.nodes)) : Bool × Option (Option (List ℕ)))) =
      some (false, some (some [1])) := by
    decide +kernel
  generalize hf : tyStep tySeedD tySeedDemand (some 12) none true
    (route_end_interchange tySeedD tySeedDemand (some 12) none 5 true) = f at e0
  have e : (tyIter f 3 (tyStart tySeedD 5 [])).map (fun s => (s.route.isSome || s.served 1 || s.served 4,
      (f s).toOption.map fun s' => s'.route.map (·.nodes))) = some (false, some (some [1])) := e0
  obtain ⟨s, hs, e⟩ := Option.map_eq_some_iff.1 e
  simp only [Prod.mk.injEq] at e
  obtain ⟨e1, e4⟩ := e
  simp only [Bool.or_eq_false_iff] at e1
  obtain ⟨⟨e1, e2⟩, e3⟩ := e1
  obtain ⟨s', hs', e5⟩ := Option.map_eq_some_iff.1 e4
  refine ⟨s, s', ?_, ?_, by simpa using e1, e2, e3, e5, by decide +kernel⟩
  · unfold TyReach
    rw [hf]
    exact tyIter_reach hs
  · cases hh : f s with
    | error e => rw [hh] at hs'; cases hs'
    | ok t => rw [hh] at hs'; injection hs' with hs'; rw [hs']

end Verif
