import Verif.Lemmas.NearestNeighbor
import Verif.Lemmas.IntraRoute
import Verif.Lemmas.Solves
import Verif.Lemmas.ParallelSavings

/-! # The main loop of the nearest neighbour heuristic -/

namespace Verif
open Spec

/-- The customers of an emerging route. -/
def slotNodes (o : Option NNRoute) : List ℕ :=
  match o with
  | none => []
  | some r => r.nodes

/-- The customers of the emerging routes. -/
def liveNodes (rs : List (Option NNRoute)) : List ℕ := rs.flatMap slotNodes

theorem liveNodes_set {rs : List (Option NNRoute)} {k : ℕ} {o : Option NNRoute} (h : rs[k]? = some o)
    (o' : Option NNRoute) : (slotNodes o ++ liveNodes (rs.set k o')).Perm (slotNodes o' ++ liveNodes rs) := by
  induction rs generalizing k with
  | nil => simp at h
  | cons x rs ih =>
    cases k with
    | zero =>
      simp only [List.getElem?_cons_zero, Option.some.injEq] at h
      subst h
      simp only [List.set_cons_zero, liveNodes, List.flatMap_cons]
      rw [← List.append_assoc, ← List.append_assoc]
      exact List.perm_append_comm.append_right _
    | succ k =>
      simp only [List.getElem?_cons_succ] at h
      have := ih h
      simp only [List.set_cons_succ, liveNodes, List.flatMap_cons]
      simp only [liveNodes] at this
      refine (List.perm_append_comm_assoc _ _ _).trans ?_
      refine (this.append_left _).trans ?_
      exact List.perm_append_comm_assoc _ _ _

/-- What is kept about a finished or emerging route. -/
def NNGood (N : ℕ) (D : ℕ → ℕ → ℚ) (d : ℕ → ℚ) (C L : Option ℚ) (u : List ℕ) : Prop :=
  u ≠ [] ∧ (Serviceable N D d C L → RouteOk D d C L u)

/-- The invariant of the main loop. -/
structure NNInv (N : ℕ) (D : ℕ → ℕ → ℚ) (d : ℕ → ℚ) (C L : Option ℚ) (count : ℕ) (mode : NNSeedMode)
    (Fb : List ℕ) (done : List (List ℕ)) (s : NNState) : Prop where
  q : QOk N D s.served s.queues
  full : mode = .nearest → QFull N s.served s.queues ∧ (s.routes[s.k]? = some none → ¬ AllServed N s.served)
  sol : s.sol = tour done
  klt : s.k < count
  rlen : s.routes.length = count
  served : ∀ x, x ∈ s.served ↔ x = 0 ∨ x ∈ Fb ∨ x ∈ done.flatten ++ liveNodes s.routes
  nodup : (done.flatten ++ liveNodes s.routes).Nodup
  fresh : ∀ x ∈ done.flatten ++ liveNodes s.routes, 1 ≤ x ∧ x < N ∧ x ∉ Fb
  doneOk : ∀ u ∈ done, NNGood N D d C L u
  liveOk : ∀ r, some r ∈ s.routes → NNGood N D d C L r.nodes ∧ 1 ≤ r.prev ∧ r.prev < N ∧ r.prev ∈ s.served ∧
    (truthy C = true → r.demand = demand d r.nodes) ∧ (truthy L = true → r.cost = cost D r.nodes)

/-- Customers that are not served. -/
def unserved (N : ℕ) (served : List ℕ) : List ℕ :=
  (List.range' 1 (N - 1)).filter fun n => ! decide (n ∈ served)

theorem unserved_cons {N : ℕ} {served : List ℕ} {x : ℕ} (h1 : 1 ≤ x) (h2 : x < N) (h3 : x ∉ served) :
    (unserved N (x :: served)).length < (unserved N served).length := by
  have : unserved N (x :: served) = (unserved N served).filter fun n => ! decide (n = x) := by
    unfold unserved
    rw [List.filter_filter]
    apply List.filter_congr
    intro y _
    by_cases hy : y = x <;> by_cases hz : y ∈ served <;> simp [hy, hz]
  rw [this]
  rw [List.length_filter_lt_length_iff_exists]
  refine ⟨x, ?_, by simp⟩
  simp only [unserved, List.mem_filter, List.mem_range'_1]
  exact ⟨by omega, by simp [h3]⟩

/-- What decreases. -/
def nnMeasure (N : ℕ) (s : NNState) : ℕ :=
  2 * (unserved N s.served).length + (if s.routes[s.k]? = some none then 0 else 1)

theorem nnMeasure_le (N : ℕ) (s : NNState) : nnMeasure N s ≤ 2 * (unserved N s.served).length + 1 := by
  unfold nnMeasure; split_ifs <;> omega

theorem nnTurn_lt {count k : ℕ} (h : k ≤ count) (h1 : 1 ≤ count) : nnTurn count k < count := by
  unfold nnTurn; split_ifs <;> omega

theorem nnTurn_self {count k : ℕ} (h : k < count) : nnTurn count k = k := by
  unfold nnTurn; rw [if_neg (by omega)]

/-- A new emerging route. -/
theorem nnSeed_spec {N : ℕ} {D : ℕ → ℕ → ℚ} {d : ℕ → ℚ} {C L : Option ℚ} {count : ℕ} {mode : NNSeedMode}
    {Fb : List ℕ} {done : List (List ℕ)} {s : NNState} (hN : 1 ≤ N) (hm : mode ≠ .other)
    (h : NNInv N D d C L count mode Fb done s) (hk : s.routes[s.k]? = some none) :
    (nnSeed D d C count mode s = .error .indexError ∧ AllServed N s.served) ∨
      ∃ s', nnSeed D d C count mode s = .ok s' ∧ NNInv N D d C L count mode Fb done s' ∧
        nnMeasure N s' < nnMeasure N s := by
  unfold nnSeed
  rcases get_seed_spec hN hm ((h.served 0).2 (.inl rfl)) h.q
    (fun e => ⟨(h.full e).1, (h.full e).2 hk⟩) with ⟨e1, e2⟩ | ⟨x, qs, e1, e2, e3, e4, e5, e6⟩
  · rw [e1]; exact .inl ⟨rfl, e2⟩
  · rw [e1]
    right
    simp only
    rw [nnTurn_self h.klt]
    have hp := liveNodes_set hk (some ⟨[x], x, if truthy C then d x else 0, 0⟩)
    simp only [slotNodes, List.nil_append, List.singleton_append] at hp
    generalize hr : (⟨[x], x, if truthy C then d x else 0, 0⟩ : NNRoute) = r at hp
    have hp' : (done.flatten ++ liveNodes (s.routes.set s.k (some r))).Perm
        (x :: (done.flatten ++ liveNodes s.routes)) := (hp.append_left _).trans List.perm_middle
    have hxn : x ∉ done.flatten ++ liveNodes s.routes := fun hx => e2 ((h.served x).2 (.inr (.inr hx)))
    have hxF : x ∉ Fb := fun hx => e2 ((h.served x).2 (.inr (.inl hx)))
    have hlen : s.k < s.routes.length := by rw [h.rlen]; exact h.klt
    refine ⟨_, rfl, ?_, ?_⟩
    · refine ⟨e5, fun e => ⟨e6 e, ?_⟩, h.sol, h.klt, by simp [h.rlen], ?_, ?_, ?_, h.doneOk, ?_⟩
      · simp only [List.getElem?_set_self hlen]
        intro hh; cases hh
      · intro y
        rw [hp'.mem_iff]
        simp only [List.mem_cons]
        rw [h.served y]
        tauto
      · exact hp'.nodup_iff.2 (List.nodup_cons.2 ⟨hxn, h.nodup⟩)
      · intro y hy
        rcases List.mem_cons.1 (hp'.mem_iff.1 hy) with rfl | hy
        · exact ⟨e3, e4, hxF⟩
        · exact h.fresh y hy
      · intro r' hr'
        simp only at hr'
        rcases List.mem_or_eq_of_mem_set hr' with hr' | hr'
        · obtain ⟨g1, g2, g3, g4, g5, g6⟩ := h.liveOk r' hr'
          exact ⟨g1, g2, g3, List.mem_cons_of_mem _ g4, g5, g6⟩
        · injection hr' with hr'
          subst hr' hr
          refine ⟨⟨by simp, fun hs => hs x e3 e4⟩, e3, e4, by simp, ?_, ?_⟩
          · intro hc; simp [hc, demand]
          · intro _; simp [cost]
    · have := unserved_cons e3 e4 e2
      refine lt_of_le_of_lt (nnMeasure_le N _) ?_
      unfold nnMeasure
      rw [if_pos hk]
      simp only
      omega

theorem cost_wrap_split {D : ℕ → ℕ → ℚ} {u : List ℕ} {a z : ℕ} (ha : u.head? = some a)
    (hz : u.getLast? = some z) : cost D (wrap u) = D 0 a + cost D u + D z 0 := by
  cases u with
  | nil => cases ha
  | cons b t =>
    simp only [List.head?_cons, Option.some.injEq] at ha
    subst ha
    obtain ⟨w, hw⟩ : ∃ w, b :: t = w ++ [z] := ⟨(b :: t).dropLast, (List.dropLast_append_getLast? z hz).symm⟩
    rw [wrap, hw]
    have e : 0 :: (w ++ [z] ++ [0]) = 0 :: w ++ z :: [0] := by simp
    rw [e, cost_append_cons]
    have : 0 :: w ++ [z] = 0 :: b :: t := by rw [List.cons_append, ← hw]
    rw [this, ← hw]
    simp

theorem wrap_extended {D : ℕ → ℕ → ℚ} {u : List ℕ} {a z : ℕ} (ha : u.head? = some a)
    (hz : u.getLast? = some z) (x : ℕ) : cost D (wrap (x :: u)) = D 0 x + D x a + cost D u + D z 0 ∧
      cost D (wrap (u ++ [x])) = D 0 a + cost D u + D z x + D x 0 := by
  constructor
  · have hl' : (x :: u).getLast? = some z := by rw [List.getLast?_cons, hz]; rfl
    rw [cost_wrap_split (a := x) rfl hl']
    cases u with
    | nil => cases ha
    | cons b t => simp only [List.head?_cons, Option.some.injEq] at ha; subst ha; simp; ring
  · have hf' : (u ++ [x]).head? = some a := by
      cases u with
      | nil => cases ha
      | cons b t => exact ha
    obtain ⟨w, hw⟩ : ∃ w, u = w ++ [z] := ⟨u.dropLast, (List.dropLast_append_getLast? z hz).symm⟩
    rw [cost_wrap_split (z := x) hf' (by simp), hw]
    have e : w ++ [z] ++ [x] = w ++ z :: [x] := by simp
    rw [e, cost_append_cons]
    simp; ring

/-- The extension of an emerging route. -/
theorem nnExtend_spec {N : ℕ} {D : ℕ → ℕ → ℚ} {d : ℕ → ℚ} {C L : Option ℚ} {count : ℕ} {mode : NNSeedMode}
    {Fb : List ℕ} {done : List (List ℕ)} {s : NNState} (endOnly : Bool) (hc1 : mode = .nearest → count = 1)
    (h : NNInv N D d C L count mode Fb done s) {r : NNRoute} (hk : s.routes[s.k]? = some (some r))
    {queues : List (List ℕ)} {q : List ℕ} {first last nn : ℕ} (hq : QOk N D s.served queues)
    (hfull : mode = .nearest → QFull N s.served queues) (hqr : queues[r.prev]? = some (nn :: q))
    (hf : r.nodes.head? = some first) (hl : r.nodes.getLast? = some last) (hnn : nn ∉ s.served) (h1 : 1 ≤ nn)
    (hN : nn < N) :
    ∃ done', NNInv N D d C L count mode Fb done' (nnExtend D d C L count endOnly s queues r first last nn) ∧
      nnMeasure N (nnExtend D d C L count endOnly s queues r first last nn) < nnMeasure N s := by
  have hlen : s.k < s.routes.length := by rw [h.rlen]; exact h.klt
  obtain ⟨g1, g2, g3, g4, g5, g6⟩ := h.liveOk r (List.mem_of_getElem? hk)
  have hmeas : nnMeasure N s = 2 * (unserved N s.served).length + 1 := by
    unfold nnMeasure; rw [if_neg (by rw [hk]; simp)]
  have hc0 : 1 ≤ count := by have := h.klt; omega
  unfold nnExtend
  simp only
  generalize hst : (!endOnly && decide (D 0 nn + D nn first + D last 0 < D 0 first + D last nn + D nn 0)) = atStart
  by_cases hv : (exceeds C C_EPS (r.demand + d nn) || exceeds L S_EPS (r.cost +
      if atStart = true then D 0 nn + D nn first + D last 0 else D 0 first + D last nn + D nn 0)) = true
  · rw [if_pos hv, nnTurn_self h.klt]
    refine ⟨done ++ [r.nodes], ?_, ?_⟩
    · have hp := liveNodes_set hk none
      simp only [slotNodes, List.nil_append] at hp
      have hp' : ((done ++ [r.nodes]).flatten ++ liveNodes (s.routes.set s.k none)).Perm
          (done.flatten ++ liveNodes s.routes) := by
        rw [List.flatten_append, List.append_assoc]
        refine List.Perm.append_left _ ?_
        simpa using hp
      refine ⟨hq, fun e => ⟨hfull e, fun _ hh => hnn (hh nn h1 hN)⟩, ?_, h.klt, by simp [h.rlen], ?_, ?_, ?_, ?_, ?_⟩
      · show s.sol ++ (r.nodes ++ [0]) = _
        rw [h.sol, tour_concat, List.append_assoc]
      · intro y; rw [hp'.mem_iff]; exact h.served y
      · exact hp'.nodup_iff.2 h.nodup
      · intro y hy; exact h.fresh y (hp'.mem_iff.1 hy)
      · intro u hu
        rcases List.mem_append.1 hu with hu | hu
        · exact h.doneOk u hu
        · rw [List.mem_singleton.1 hu]; exact g1
      · intro r' hr'
        simp only at hr'
        rcases List.mem_or_eq_of_mem_set hr' with hr' | hr'
        · exact h.liveOk r' hr'
        · cases hr'
    · rw [hmeas]
      unfold nnMeasure
      simp only
      rw [if_pos (List.getElem?_set_self hlen)]
      omega
  · rw [if_neg hv]
    simp only [Bool.or_eq_true, not_or, Bool.not_eq_true] at hv
    obtain ⟨v1, v2⟩ := hv
    have hwr := cost_wrap_split (D := D) hf hl
    generalize hr' : (if atStart = true then
        (⟨nn :: r.nodes, nn, if truthy C = true then r.demand + d nn else r.demand,
          if truthy L = true then r.cost + D nn first else r.cost⟩ : NNRoute)
      else ⟨r.nodes ++ [nn], nn, if truthy C = true then r.demand + d nn else r.demand,
          if truthy L = true then r.cost + D last nn else r.cost⟩) = r'
    have key : r'.nodes.Perm (nn :: r.nodes) ∧ r'.prev = nn ∧ r'.nodes ≠ [] ∧
        (truthy C = true → r'.demand = demand d r'.nodes) ∧ (truthy L = true → r'.cost = cost D r'.nodes) ∧
        (truthy L = true → cost D (wrap r'.nodes) = r.cost +
          if atStart = true then D 0 nn + D nn first + D last 0 else D 0 first + D last nn + D nn 0) := by
      cases atStart with
      | true =>
        rw [if_pos rfl] at hr'
        subst hr'
        have hcost : cost D (nn :: r.nodes) = D nn first + cost D r.nodes := by
          cases hn : r.nodes with
          | nil => rw [hn] at hf; cases hf
          | cons a t => rw [hn] at hf; simp only [List.head?_cons, Option.some.injEq] at hf; subst hf; simp
        refine ⟨List.Perm.refl _, rfl, by simp, ?_, ?_, ?_⟩
        · intro hc; simp only [hc, if_true]; rw [g5 hc, demand_cons]; ring
        · intro hc; simp only [hc, if_true]; rw [g6 hc, hcost]; ring
        · intro hc
          have hl' : (nn :: r.nodes).getLast? = some last := by rw [List.getLast?_cons, hl]; rfl
          rw [cost_wrap_split (a := nn) rfl hl', hcost, g6 hc]
          simp only [if_true]
          ring
      | false =>
        rw [if_neg (by simp)] at hr'
        subst hr'
        obtain ⟨w, hw⟩ : ∃ w, r.nodes = w ++ [last] := ⟨r.nodes.dropLast, (List.dropLast_append_getLast? last hl).symm⟩
        have hcost : cost D (r.nodes ++ [nn]) = cost D r.nodes + D last nn := by
          rw [hw]
          have e : w ++ [last] ++ [nn] = w ++ last :: [nn] := by simp
          rw [e, cost_append_cons]
          simp
        refine ⟨List.perm_append_comm, rfl, by simp, ?_, ?_, ?_⟩
        · intro hc; simp only [hc, if_true]; rw [g5 hc, demand_append]; simp
        · intro hc; simp only [hc, if_true]; rw [g6 hc, hcost]
        · intro hc
          have hf' : (r.nodes ++ [nn]).head? = some first := by
            cases hn : r.nodes with
            | nil => rw [hn] at hf; cases hf
            | cons a t => rw [hn] at hf; exact hf
          rw [cost_wrap_split (z := nn) hf' (by simp), hcost, g6 hc]
          simp only [Bool.false_eq_true, if_false]
          ring
    obtain ⟨k1, k2, k3, k4, k5, k6⟩ := key
    refine ⟨done, ?_, ?_⟩
    · have hp := liveNodes_set hk (some r')
      simp only [slotNodes] at hp
      have hp' : (done.flatten ++ liveNodes (s.routes.set s.k (some r'))).Perm
          (nn :: (done.flatten ++ liveNodes s.routes)) := by
        have : (liveNodes (s.routes.set s.k (some r'))).Perm (nn :: liveNodes s.routes) := by
          have h2 := hp.trans (k1.append_right _)
          rw [List.perm_iff_count] at h2 ⊢
          intro x
          have := h2 x
          simp only [List.count_append, List.count_cons] at this ⊢
          omega
        exact (this.append_left _).trans List.perm_middle
      have hnn' : nn ∉ done.flatten ++ liveNodes s.routes := fun hx => hnn ((h.served nn).2 (.inr (.inr hx)))
      have hnF : nn ∉ Fb := fun hx => hnn ((h.served nn).2 (.inr (.inl hx)))
      have hmod : queues.modify r.prev List.tail = queues.set r.prev q := by
        rw [List.modify_eq_set_getElem?, hqr]; rfl
      refine ⟨?_, fun e => ⟨?_, ?_⟩, h.sol, nnTurn_lt (by have := h.klt; omega) hc0, by simp [h.rlen], ?_, ?_, ?_, h.doneOk, ?_⟩
      · show QOk N D (nn :: s.served) (queues.modify r.prev List.tail)
        rw [hmod]
        refine qok_set (qok_served hq fun y hy => List.mem_cons_of_mem _ hy) hqr (List.sublist_cons_self _ _) ?_
        intro y hy hns
        rcases List.mem_cons.1 hy with rfl | hy
        · exact absurd (by simp) hns
        · exact hy
      · show QFull N (nn :: s.served) (queues.modify r.prev List.tail)
        rw [hmod]
        intro i p i1 i2 i3 i4
        have i3' : i ∉ s.served := fun hx => i3 (List.mem_cons_of_mem _ hx)
        have : r.prev ≠ i := fun e => i3' (e ▸ g4)
        rw [List.getElem?_set_ne this] at i4
        exact hfull e i p i1 i2 i3' i4
      · intro hh
        exfalso
        have hc := hc1 e
        have hk0 : s.k = 0 := by have := h.klt; omega
        simp only [hk0, hc, nnTurn] at hh
        have hl0 : 0 < s.routes.length := by rw [h.rlen]; omega
        simp only [Nat.zero_add, if_true] at hh
        rw [List.getElem?_set_self hl0] at hh
        cases hh
      · intro y
        show y ∈ nn :: s.served ↔ _
        rw [hp'.mem_iff]
        simp only [List.mem_cons]
        rw [h.served y]
        constructor
        · rintro (e | e | e | e)
          exacts [.inr (.inr (.inl e)), .inl e, .inr (.inl e), .inr (.inr (.inr e))]
        · rintro (e | e | e | e)
          exacts [.inr (.inl e), .inr (.inr (.inl e)), .inl e, .inr (.inr (.inr e))]
      · exact hp'.nodup_iff.2 (List.nodup_cons.2 ⟨hnn', h.nodup⟩)
      · intro y hy
        rcases List.mem_cons.1 (hp'.mem_iff.1 hy) with rfl | hy
        · exact ⟨h1, hN, hnF⟩
        · exact h.fresh y hy
      · intro r'' hr''
        simp only at hr''
        rcases List.mem_or_eq_of_mem_set hr'' with hr'' | hr''
        · obtain ⟨g1, g2, g3, g4, g5, g6⟩ := h.liveOk r'' hr''
          exact ⟨g1, g2, g3, List.mem_cons_of_mem _ g4, g5, g6⟩
        · injection hr'' with hr''
          subst hr''
          refine ⟨⟨k3, fun hs => ⟨?_, ?_⟩⟩, by rw [k2]; exact h1, by rw [k2]; exact hN, by rw [k2]; simp, k4, k5⟩
          · by_cases hC : truthy C = true
            · rw [exceeds_iff] at v1
              rw [demand_perm d k1, demand_cons]
              rw [g5 hC] at v1
              convert v1 using 1; ring
            · intro c hc hc0
              exact absurd (by simp [truthy, hc, hc0]) hC
          · by_cases hL : truthy L = true
            · rw [k6 hL]
              exact (exceeds_iff _ _ _).1 v2
            · intro c hc hc0
              exact absurd (by simp [truthy, hc, hc0]) hL
    · have := unserved_cons h1 hN hnn
      refine lt_of_le_of_lt (nnMeasure_le N _) ?_
      rw [hmeas]
      simp only
      omega

/-- A round of the main loop. -/
theorem nnStep_spec {N : ℕ} {D : ℕ → ℕ → ℚ} {d : ℕ → ℚ} {C L : Option ℚ} {count : ℕ} {mode : NNSeedMode}
    {Fb : List ℕ} {done : List (List ℕ)} {s : NNState} (endOnly : Bool) (hN : 1 ≤ N) (hm : mode ≠ .other)
    (hc1 : mode = .nearest → count = 1) (h : NNInv N D d C L count mode Fb done s) :
    (nnStep D d C L count mode endOnly s = .error .indexError ∧ AllServed N s.served) ∨
      ∃ s' done', nnStep D d C L count mode endOnly s = .ok s' ∧ NNInv N D d C L count mode Fb done' s' ∧
        nnMeasure N s' < nnMeasure N s := by
  have hlen : s.k < s.routes.length := by rw [h.rlen]; exact h.klt
  have hk : s.routes[s.k]? = some s.routes[s.k] := List.getElem?_eq_getElem hlen
  generalize s.routes[s.k] = o at hk
  unfold nnStep
  rw [show idx s.routes s.k = .ok o by rw [idx, hk]]
  cases o with
  | none =>
    simp only
    rcases nnSeed_spec hN hm h hk with h1 | ⟨s', h1, h2, h3⟩
    · exact .inl h1
    · exact .inr ⟨s', done, h1, h2, h3⟩
  | some r =>
    simp only
    obtain ⟨g1, g2, g3, g4, g5, g6⟩ := h.liveOk r (List.mem_of_getElem? hk)
    have hql : r.prev < s.queues.length := by rw [h.q.len]; exact g3
    have hq : s.queues[r.prev]? = some s.queues[r.prev] := List.getElem?_eq_getElem hql
    generalize s.queues[r.prev] = q at hq
    rw [show idx s.queues r.prev = .ok q by rw [idx, hq]]
    simp only
    cases hp : seedPop s.served q with
    | none =>
      left
      refine ⟨rfl, fun j h1 h2 => ?_⟩
      by_contra hj
      by_cases e : j = r.prev
      · exact hj (e ▸ g4)
      · exact hj (seedPop_none hp j (h.q.mem _ q hq j h1 h2 e hj))
    | some p =>
      obtain ⟨nn, q'⟩ := p
      obtain ⟨p1, pre, p2, p3⟩ := seedPop_some hp
      have hnN : nn < N := nnQueue_lt ((h.q.sub _ q hq).mem (by rw [p2]; simp))
      have hn1 : 1 ≤ nn := Nat.one_le_iff_ne_zero.2 fun e => p1 ((h.served nn).2 (.inl e))
      obtain ⟨first, last, hf, hl⟩ := ends g1.1
      have e1 : idx r.nodes 0 = .ok first := by rw [idx, ← List.head?_eq_getElem?, hf]
      have e2 : idx r.nodes (r.nodes.length - 1) = .ok last := by rw [idx, ← List.getLast?_eq_getElem?, hl]
      right
      simp only
      rw [e1, e2]
      have hqok : QOk N D s.served (s.queues.set r.prev (nn :: q')) := by
        refine qok_set h.q hq (by rw [p2]; exact List.sublist_append_right _ _) ?_
        intro y hy hns
        rw [p2] at hy
        exact (List.mem_append.1 hy).resolve_left fun hh => hns (p3 y hh)
      obtain ⟨done', k1, k2⟩ := nnExtend_spec endOnly hc1 h hk (queues := s.queues.set r.prev (nn :: q')) hqok
        (fun e i p i1 i2 i3 i4 => by
          have : r.prev ≠ i := fun e => i3 (e ▸ g4)
          rw [List.getElem?_set_ne this] at i4
          exact (h.full e).1 i p i1 i2 i3 i4)
        (List.getElem?_set_self hql) hf hl p1 hn1 hnN
      exact ⟨_, done', rfl, k1, k2⟩

theorem nnLoop_spec {N : ℕ} {D : ℕ → ℕ → ℚ} {d : ℕ → ℚ} {C L : Option ℚ} {count : ℕ} {mode : NNSeedMode}
    {Fb : List ℕ} (endOnly : Bool) (hN : 1 ≤ N) (hm : mode ≠ .other) (hc1 : mode = .nearest → count = 1)
    {done : List (List ℕ)} {s : NNState} (h : NNInv N D d C L count mode Fb done s) :
    ∃ s' done', (∀ fuel, nnMeasure N s < fuel → nnLoop D d C L count mode endOnly fuel s = .ok (some s')) ∧
      NNInv N D d C L count mode Fb done' s' ∧ AllServed N s'.served := by
  induction hμ : nnMeasure N s using Nat.strong_induction_on generalizing s done with
  | _ μ ih =>
    rcases nnStep_spec endOnly hN hm hc1 h with ⟨e1, e2⟩ | ⟨s1, done1, e1, e2, e3⟩
    · refine ⟨s, done, fun fuel hf => ?_, h, e2⟩
      obtain ⟨f, rfl⟩ : ∃ f, fuel = f + 1 := ⟨fuel - 1, by omega⟩
      rw [nnLoop, e1]
    · obtain ⟨s', done', i1, i2, i3⟩ := ih _ (hμ ▸ e3) e2 rfl
      refine ⟨s', done', fun fuel hf => ?_, i2, i3⟩
      obtain ⟨f, rfl⟩ : ∃ f, fuel = f + 1 := ⟨fuel - 1, by omega⟩
      rw [nnLoop, e1]
      exact i1 f (by omega)

theorem nnInit_inv {N : ℕ} {D : ℕ → ℕ → ℚ} {d : ℕ → ℚ} {C L : Option ℚ} {count : ℕ} {mode : NNSeedMode}
    {Fb : List ℕ} (hD : DistinctCustomers N D) (hc : 1 ≤ count)
    (hn : mode = .nearest → ¬ AllServed N (0 :: Fb)) :
    NNInv N D d C L count mode Fb [] (nnInit D N count Fb) := by
  have hget : ∀ i (q : List ℕ), ((List.range N).map (nnQueue D N))[i]? = some q → i < N ∧ q = nnQueue D N i := by
    intro i q hq
    simp only [List.getElem?_map] at hq
    by_cases hi : i < N
    · simp [hi] at hq; exact ⟨hi, hq.symm⟩
    · simp [hi] at hq
  have hlive : liveNodes (List.replicate count none) = [] := by
    simp [liveNodes, slotNodes]
  refine ⟨⟨by simp [nnInit], ?_, ?_⟩, fun e => ⟨?_, fun _ => hn e⟩, rfl, hc, by simp [nnInit], ?_, ?_, ?_, by simp, ?_⟩
  · intro i q hq; rw [(hget i q hq).2]
  · intro i q hq j h1 h2 h3 _
    obtain ⟨g1, rfl⟩ := hget i q hq
    exact nnQueue_mem hD g1 h1 h2 h3
  · intro i q h1 h2 h3 h4 h5
    obtain ⟨g1, rfl⟩ := hget i q h4
    have := nnQueue_length D N i
    rw [h5] at this
    simp at this
    omega
  · intro x; simp [nnInit, hlive]
  · simp [nnInit, hlive]
  · simp [nnInit, hlive]
  · intro r hr
    simp [nnInit] at hr

/-- The routes a state stands for. -/
def nnRoutes (done : List (List ℕ)) (s : NNState) : List (List ℕ) :=
  done ++ s.routes.filterMap fun o => o.map (·.nodes)

theorem tour_append_flatMap (as bs : List (List ℕ)) :
    tour (as ++ bs) = tour as ++ bs.flatMap fun b => b ++ [0] := by
  induction bs generalizing as with
  | nil => simp
  | cons b bs ih =>
    rw [List.append_cons, ih, tour_concat]
    simp

theorem nnClose_eq {done : List (List ℕ)} {s : NNState} (h : s.sol = tour done) :
    nnClose s = tour (nnRoutes done s) := by
  unfold nnClose nnRoutes
  rw [h, tour_append_flatMap]
  congr 1
  generalize s.routes = rs
  induction rs with
  | nil => rfl
  | cons o rs ih => cases o <;> simp [ih]

theorem nnRoutes_flatten (done : List (List ℕ)) (s : NNState) :
    (nnRoutes done s).flatten = done.flatten ++ liveNodes s.routes := by
  unfold nnRoutes liveNodes
  rw [List.flatten_append]
  congr 1
  generalize s.routes = rs
  induction rs with
  | nil => rfl
  | cons o rs ih => cases o <;> simp [slotNodes, ih]

theorem nnRoutes_good {N : ℕ} {D : ℕ → ℕ → ℚ} {d : ℕ → ℚ} {C L : Option ℚ} {count : ℕ} {mode : NNSeedMode}
    {Fb : List ℕ} {done : List (List ℕ)} {s : NNState} (h : NNInv N D d C L count mode Fb done s) :
    ∀ u ∈ nnRoutes done s, NNGood N D d C L u := by
  intro u hu
  rcases List.mem_append.1 hu with hu | hu
  · exact h.doneOk u hu
  · obtain ⟨o, ho, hou⟩ := List.mem_filterMap.1 hu
    cases o with
    | none => cases hou
    | some r =>
      simp only [Option.map_some, Option.some.injEq] at hou
      subst hou
      exact (h.liveOk r ho).1

theorem nn_allowed {N : ℕ} {D : ℕ → ℕ → ℚ} {d : ℕ → ℚ} {C L : Option ℚ} {count : ℕ} {mode : NNSeedMode}
    {Fb : List ℕ} {done : List (List ℕ)} {s : NNState} (h : NNInv N D d C L count mode Fb done s)
    (ha : AllServed N s.served) : (nnRoutes done s).flatten.Perm (allowed N Fb) := by
  rw [nnRoutes_flatten]
  refine (List.perm_ext_iff_of_nodup h.nodup ((List.nodup_range' (step := 1)).filter _)).2 fun x => ?_
  simp only [List.mem_filter, List.mem_range'_1, Bool.not_eq_true', decide_eq_false_iff_not]
  constructor
  · intro hx
    obtain ⟨h1, h2, h3⟩ := h.fresh x hx
    exact ⟨by omega, h3⟩
  · rintro ⟨⟨h1, h2⟩, h3⟩
    rcases (h.served x).1 (ha x h1 (by omega)) with e | e | e
    · omega
    · exact absurd e h3
    · exact e

theorem solves_good {N : ℕ} {D : ℕ → ℕ → ℚ} {d : ℕ → ℚ} {C L : Option ℚ} {us : List (List ℕ)}
    (hp : us.flatten.Perm (List.range' 1 (N - 1))) (h : ∀ u ∈ us, NNGood N D d C L u) :
    Solves N D d C L (tour us) := by
  have hne : [] ∉ us := fun hh => (h _ hh).1 rfl
  obtain ⟨h1, h2, h3⟩ := solves_tour (N := N) (D := D) (d := d) (C := none) (L := none) hp hne
    (fun u _ => ⟨fun c (hc : none = some c) => (by cases hc), fun c (hc : none = some c) => (by cases hc)⟩)
  exact ⟨h1.ends, h1.covers, h1.noEmpty, fun hs => (solves_tour hp hne fun u hu => (h u hu).2 hs).2.1⟩

theorem tour_length_one (us : List (List ℕ)) : (tour us).length = 1 ↔ us = [] := by
  cases us with
  | nil => simp [tour]
  | cons b bs =>
    simp only [tour, List.length_cons, List.length_append]
    constructor
    · intro hh
      have : 0 < (tour bs).length := by cases bs <;> simp [tour]
      omega
    · intro hh; cases hh

theorem singles_fold (xs : List ℕ) (h : ∀ x ∈ xs, x ≠ 0) (as : List (List ℕ)) :
    (xs.map fun n => [n]).foldl routes2sol_step (tour as) = tour (as ++ xs.map fun n => [n]) := by
  induction xs generalizing as with
  | nil => simp
  | cons x xs ih =>
    rw [List.map_cons, List.foldl_cons, routes2sol_step_block ⟨by simp, by simpa using h x (by simp)⟩,
      ← tour_concat, ih (fun y hy => h y (by simp [hy]))]
    simp

theorem mem_tour (us : List (List ℕ)) (x : ℕ) : x ∈ tour us ↔ x = 0 ∨ x ∈ us.flatten := by
  induction us with
  | nil => simp [tour]
  | cons b bs ih =>
    simp only [tour, List.mem_cons, List.mem_append, ih, List.flatten_cons]
    tauto

/-- The interrupted solution. -/
theorem nnInterrupted_spec {N : ℕ} {D : ℕ → ℕ → ℚ} {d : ℕ → ℚ} {C L : Option ℚ} {count : ℕ} {mode : NNSeedMode}
    {Fb : List ℕ} {done : List (List ℕ)} {s : NNState} (h : NNInv N D d C L count mode Fb done s)
    (hleft : ∃ j, 1 ≤ j ∧ j < N ∧ j ∉ nnClose s) :
    ∃ sol, nnInterrupted N s = .ok (some sol) ∧ Solves N D d C L sol := by
  have hcl := nnClose_eq h.sol
  unfold nnInterrupted
  simp only
  rw [hcl] at hleft ⊢
  set us := nnRoutes done s with hus
  have hfl : us.flatten = done.flatten ++ liveNodes s.routes := nnRoutes_flatten done s
  set xs := (List.range N).filter fun n => ! decide (n ∈ tour us) with hxs
  have hmx : ∀ x, x ∈ xs ↔ 1 ≤ x ∧ x < N ∧ x ∉ us.flatten := by
    intro x
    simp only [hxs, List.mem_filter, List.mem_range, Bool.not_eq_true', decide_eq_false_iff_not, mem_tour, not_or]
    constructor
    · rintro ⟨h1, h2, h3⟩; exact ⟨by omega, h1, h3⟩
    · rintro ⟨h1, h2, h3⟩; exact ⟨h2, by omega, h3⟩
  have hne : xs ≠ [] := by
    obtain ⟨j, h1, h2, h3⟩ := hleft
    rw [mem_tour] at h3
    exact List.ne_nil_of_mem ((hmx j).2 ⟨h1, h2, fun e => h3 (.inr e)⟩)
  have hz : ∀ x ∈ xs, x ≠ 0 := fun x hx => by have := (hmx x).1 hx; omega
  have hr : routes2sol (xs.map fun n => [n]) = some (tour (xs.map fun n => [n])) := by
    unfold routes2sol
    rw [if_neg (by simpa using hne)]
    have := singles_fold xs hz []
    simp only [tour, List.nil_append] at this
    rw [this]
  have hsolv : Solves N D d C L (tour (us ++ xs.map fun n => [n])) := by
    refine solves_good ?_ ?_
    · rw [List.flatten_append]
      have e : (xs.map fun n => [n]).flatten = xs := by
        generalize xs = ys
        induction ys with
        | nil => rfl
        | cons x t ih => simp [ih]
      rw [e]
      have hnd : xs.Nodup := (List.nodup_range).filter _
      refine (List.perm_ext_iff_of_nodup ?_ (List.nodup_range' (step := 1))).2 fun x => ?_
      · refine List.nodup_append.2 ⟨hfl ▸ h.nodup, hnd, fun a ha b hb e => ?_⟩
        subst e
        exact ((hmx a).1 hb).2.2 ha
      · rw [List.mem_append, hmx, List.mem_range'_1]
        constructor
        · rintro (hx | hx)
          · have := h.fresh x (hfl ▸ hx); omega
          · omega
        · rintro hx
          by_cases hu : x ∈ us.flatten
          · exact .inl hu
          · exact .inr ⟨hx.1, by omega, hu⟩
    · intro u hu
      rcases List.mem_append.1 hu with hu | hu
      · exact nnRoutes_good h u hu
      · obtain ⟨x, hx, rfl⟩ := List.mem_map.1 hu
        have := (hmx x).1 hx
        exact ⟨by simp, fun hs => hs x this.1 this.2.1⟩
  by_cases hlen : (tour us).length > 1
  · rw [if_pos hlen, hr]
    refine ⟨_, rfl, ?_⟩
    have e : (tour us).dropLast ++ tour (xs.map fun n => [n]) = tour (us ++ xs.map fun n => [n]) := by
      rw [tour_append]
      have hd : tour us = (tour us).dropLast ++ [0] := by
        refine (List.dropLast_append_getLast? 0 ?_).symm
        exact (depotEnds_tour us).2
      have ht : tour (xs.map fun n => [n]) = 0 :: (tour (xs.map fun n => [n])).tail := by
        cases xs <;> simp [tour]
      conv_lhs => rw [ht]
      conv_rhs => rw [hd]
      simp
    rw [e]; exact hsolv
  · rw [if_neg hlen, hr]
    have : us = [] := by
      rw [← tour_length_one]
      have : 0 < (tour us).length := by cases us <;> simp [tour]
      omega
    rw [this, List.nil_append] at hsolv
    exact ⟨_, rfl, hsolv⟩

/-- The customer added to a route is the nearest one. -/
theorem seed_nearest {N : ℕ} {D : ℕ → ℕ → ℚ} {served : List ℕ} {queues : List (List ℕ)} (hq : QOk N D served queues)
    {i nn : ℕ} {q q' : List ℕ} (hi : queues[i]? = some q) (hp : seedPop served q = some (nn, q')) :
    ∀ j, 1 ≤ j → j < N → j ≠ i → j ∉ served → D i nn ≤ D i j := by
  intro j h1 h2 h3 h4
  obtain ⟨p1, pre, p2, p3⟩ := seedPop_some hp
  have hj := hq.mem i q hi j h1 h2 h3 h4
  rw [p2] at hj
  rcases List.mem_append.1 hj with hj | hj
  · exact absurd (p3 j hj) h4
  · rcases List.mem_cons.1 hj with rfl | hj
    · exact le_refl _
    · have hs := (nnQueue_sorted D N i).sublist (hq.sub i q hi)
      rw [p2] at hs
      have := (List.pairwise_append.1 hs).2.1
      exact (List.pairwise_cons.1 this).1 j hj

end Verif
