import Verif.Model.SweepCallback
import Verif.Props.GillettMiller

/-! # Lemmas on the sweep with a callback -/

namespace Verif

open Spec

section

variable {D : ℕ → ℕ → ℚ} {d : ℕ → ℚ} {C L : Option ℚ} {fwd : Bool} {nodes : List ℕ} {tsp : Router}

/-! ## What the backward removal and the scan pass -/

theorem posAt_succ (fwd : Bool) {n : ℕ} (hn : 0 < n) (pos k : ℕ) :
    posAt fwd n pos (k + 1) = sweepStep fwd (posAt fwd n pos k) (n - 1) := (sweepStep_posAt fwd hn pos k).symm

/-- The removed nodes are those of the route among the positions passed, and the removal stops at the first
route within the limit. -/
theorem ensureL_back (h0 : 0 ∉ nodes) {pos0 : ℕ} (hpos : pos0 < nodes.length) (fuel : ℕ) :
    ∀ (cur : SwRoute) (routed : ℕ → Bool) (t : List ℕ) (j m lpos : ℕ) (x : SwRoute × (ℕ → Bool) × ℕ),
      cur.node_set = 0 :: t → cur.cost = (tsp (0 :: t)).2 → t.Nodup →
      (∀ y ∈ t, ∀ i, 1 ≤ i → i ≤ j → nodes[posAt (!fwd) nodes.length pos0 i]? ≠ some y) →
      lpos = posAt (!fwd) nodes.length pos0 m →
      ensureL d C L fwd nodes tsp fuel cur routed (posAt (!fwd) nodes.length pos0 j) lpos = .ok (some x) →
      x.2.1 0 = routed 0 ∧ ∃ m' t', x.1.node_set = 0 :: t' ∧ x.2.2 = posAt (!fwd) nodes.length pos0 m' ∧
        t'.Sublist t ∧ ((m' = m ∧ t' = t) ∨ (j < m' ∧ t' ≠ t ∧
          (∀ y ∈ t, y ∉ t' → ∃ i, j < i ∧ i ≤ m' ∧ nodes[posAt (!fwd) nodes.length pos0 i]? = some y) ∧
          ∃ t'', t'' ≠ [] ∧ t''.Sublist t ∧ exceeds L S_EPS (tsp (0 :: t'')).2 = true ∧
            ∀ y ∈ t'', ∀ i, 1 ≤ i → i < m' → nodes[posAt (!fwd) nodes.length pos0 i]? ≠ some y)) := by
  induction fuel with
  | zero => intro cur routed t j m lpos x _ _ _ _ _ h; simp [ensureL] at h
  | succ fuel ih =>
    intro cur routed t j m lpos x hset hcost hnd hfree hl h
    simp only [ensureL] at h
    by_cases hok : exceeds L S_EPS cur.cost = false
    · rw [if_pos hok] at h
      cases h
      exact ⟨rfl, m, t, hset, hl, List.Sublist.refl t, Or.inl ⟨rfl, rfl⟩⟩
    · rw [if_neg hok, sweepStep_posAt _ (by omega)] at h
      have hlt := posAt_lt (!fwd) (n := nodes.length) (by omega) pos0 (j + 1)
      rw [idx_lt hlt] at h
      simp only at h
      have hget : nodes[posAt (!fwd) nodes.length pos0 (j + 1)]? =
          some nodes[posAt (!fwd) nodes.length pos0 (j + 1)] := List.getElem?_eq_getElem hlt
      generalize hb : nodes[posAt (!fwd) nodes.length pos0 (j + 1)] = b at h hget
      have hb0 : b ≠ 0 := fun e => h0 (e ▸ hb ▸ List.getElem_mem hlt)
      by_cases hin : b ∈ cur.node_set
      · rw [if_pos hin] at h
        have hbt : b ∈ t := by
          rw [hset] at hin
          rcases List.mem_cons.1 hin with e | e
          · exact absurd e hb0
          · exact e
        have hns : cur.node_set.erase b = 0 :: t.erase b := by
          rw [hset, List.erase_cons_tail (by simpa using fun h : 0 = b => hb0 h.symm)]
        obtain ⟨g1, m', t', g2, g3, gs, g4⟩ := ih _ (setRouted routed b false) (t.erase b) (j + 1) (j + 1) _ x hns
          (by rw [hns]) (hnd.erase b) (fun y hy i hi1 hi2 => by
            by_cases e : i = j + 1
            · subst e
              rw [hget]
              intro e'
              have e' : b = y := by simpa using e'
              subst e'
              exact hnd.not_mem_erase hy
            · exact hfree y (List.mem_of_mem_erase hy) i hi1 (by omega)) rfl h
        refine ⟨by rw [g1]; simp [setRouted, Ne.symm hb0], m', t', g2, g3, gs.trans List.erase_sublist, Or.inr ?_⟩
        have hlen := List.length_erase_of_mem hbt
        have hpos := List.length_pos_of_mem hbt
        rcases g4 with ⟨e1, e2⟩ | ⟨g4, gne, g5, t'', gn, g6, g7, g8⟩
        · refine ⟨by omega, ?_, fun y hy hy' => ⟨j + 1, by omega, by omega, ?_⟩, t, List.ne_nil_of_mem hbt, List.Sublist.refl t, ?_, fun y hy i hi1 hi2 =>
            hfree y hy i hi1 (by omega)⟩
          · intro e; rw [← e2, e] at hlen; omega
          · rw [e2] at hy'
            rw [hget]
            by_contra hne
            exact hy' ((List.mem_erase_of_ne (fun e => hne (by rw [e]))).2 hy)
          · rw [← hcost]; simpa using hok
        · refine ⟨by omega, ?_, fun y hy hy' => ?_, t'', gn, g6.trans List.erase_sublist, g7, g8⟩
          · intro e
            exact hnd.not_mem_erase (gs.subset (e ▸ hbt))
          · by_cases e : y = b
            · exact ⟨j + 1, by omega, by omega, by rw [hget, e]⟩
            · obtain ⟨i, hi1, hi2, hi3⟩ := g5 y ((List.mem_erase_of_ne e).2 hy) hy'
              exact ⟨i, by omega, hi2, hi3⟩
      · rw [if_neg hin] at h
        have hbt : b ∉ t := fun e => hin (by rw [hset]; exact List.mem_cons_of_mem _ e)
        obtain ⟨g1, m', t', g2, g3, gs, g4⟩ := ih cur routed t (j + 1) m lpos x hset hcost hnd (fun y hy i hi1 hi2 => by
            by_cases e : i = j + 1
            · subst e
              rw [hget]
              intro e'
              have e' : b = y := by simpa using e'
              exact hbt (e' ▸ hy)
            · exact hfree y hy i hi1 (by omega)) hl h
        refine ⟨g1, m', t', g2, g3, gs, ?_⟩
        rcases g4 with g4 | ⟨g4, gne, g5, t'', gn, g6, g7, g8⟩
        · exact Or.inl g4
        · refine Or.inr ⟨by omega, gne, fun y hy hy' => ?_, t'', gn, g6, g7, g8⟩
          obtain ⟨i, hi1, hi2, hi3⟩ := g5 y hy hy'
          exact ⟨i, by omega, hi2, hi3⟩

/-- The nodes the scan passes are all taken. -/
theorem swScan_pass {routed : ℕ → Bool} {start : ℕ} (hs : start < nodes.length) (fuel : ℕ) :
    ∀ (j pos' n : ℕ),
      swScan fwd nodes routed start fuel (posAt fwd nodes.length start j) = .ok (some (pos', some n)) →
      ∃ i, j < i ∧ pos' = posAt fwd nodes.length start i ∧ nodes[pos']? = some n ∧ routed n = false ∧
        ∀ k, j < k → k < i → ∀ x, nodes[posAt fwd nodes.length start k]? = some x → routed x = true := by
  induction fuel with
  | zero => intro j pos' n h; simp [swScan] at h
  | succ fuel ih =>
    intro j pos' n h
    rw [swScan] at h
    simp only [sweepStep_posAt fwd (show 0 < nodes.length by omega)] at h
    have hlt := posAt_lt fwd (n := nodes.length) (by omega) start (j + 1)
    rw [idx_lt hlt] at h
    simp only at h
    by_cases h1 : routed nodes[posAt fwd nodes.length start (j + 1)] = true
    · rw [if_neg (by simp [h1])] at h
      by_cases h2 : posAt fwd nodes.length start (j + 1) = start
      · rw [if_pos h2] at h
        simp at h
      · rw [if_neg h2] at h
        obtain ⟨i, g1, g2, g3, g4, g5⟩ := ih _ _ _ h
        refine ⟨i, by omega, g2, g3, g4, fun k hk1 hk2 x hx => ?_⟩
        by_cases e : k = j + 1
        · subst e
          rw [List.getElem?_eq_getElem hlt, Option.some.injEq] at hx
          rw [← hx]; exact h1
        · exact g5 k (by omega) hk2 x hx
    · rw [if_pos (by simpa using h1)] at h
      simp only [Except.ok.injEq, Option.some.injEq, Prod.mk.injEq] at h
      obtain ⟨e1, e2⟩ := h
      refine ⟨j + 1, by omega, e1.symm, ?_, ?_, fun k _ _ => by omega⟩
      · rw [← e1, ← e2]; exact List.getElem?_eq_getElem hlt
      · rw [← e2]; simpa using h1

/-! ## The callback of Gillett and Miller -/

theorem gmLooks_ok (g : GmData) (fwd : Bool) (routed : ℕ → Bool) (kii jjx : ℕ) (jii : Option ℕ)
    (hN : g.N = g.nodes.length + 1) : ∀ (k : ℕ) (c : GmChain), c.pos < g.nodes.length →
    ∃ c', gmLooks g fwd routed kii jjx jii k c = .ok c' ∧ c'.pos < g.nodes.length
  | 0, c, h => ⟨c, rfl, h⟩
  | k + 1, c, h => by
    have hlt : sweepStep fwd c.pos (g.N - 2) < g.nodes.length := by
      have : g.N - 2 = g.nodes.length - 1 := by omega
      rw [this]
      exact sweepStep_lt fwd h
    obtain ⟨c1, h1, h2⟩ : ∃ c1, gmLook g fwd routed kii jjx jii c = .ok c1 ∧ c1.pos < g.nodes.length := by
      unfold gmLook
      simp only [List.getElem?_eq_getElem hlt]
      split
      · exact ⟨_, rfl, hlt⟩
      · split
        · exact ⟨_, rfl, hlt⟩
        · split
          · exact ⟨_, rfl, hlt⟩
          · exact ⟨_, rfl, hlt⟩
    obtain ⟨c2, h3, h4⟩ := gmLooks_ok g fwd routed kii jjx jii hN k c1 h2
    exact ⟨c2, by simp only [gmLooks, h1, h3], h4⟩

theorem gmArgmin_some {key : ℕ → ℚ} {l : List ℕ} (h : l ≠ []) : ∃ k, gmArgmin key l = some k := by
  cases l with
  | nil => exact absurd rfl h
  | cons a t =>
    unfold gmArgmin
    cases gmArgmin key t with
    | none => exact ⟨a, rfl⟩
    | some b =>
      simp only
      split
      · exact ⟨a, rfl⟩
      · exact ⟨b, rfl⟩

/-- The callback raises nothing when there is a customer to sweep; an unchanged route is complete, and
after a change the swept customer is added or ignored. -/
theorem gm_improvement_cases (tsp : TspSolver) (g : GmData) (fwd : Bool) (rd : SwRoute) (routed : ℕ → Bool)
    (pos J : ℕ) (hN : g.N = g.nodes.length + 1) (hJ : g.nodes[pos]? = some J) (hr : routed J = false)
    (hns : rd.node_set.tail ≠ []) (hnn : ∀ i, ∀ m ∈ g.nodes, m ∈ g.NN_D i) :
    ∃ rd' added ignored fin, gm_improvement tsp g fwd rd routed pos = .ok (rd', added, ignored, fin) ∧
      ((rd' = rd ∧ added = [] ∧ ignored = [] ∧ fin = true) ∨
        (fin = false ∧ (J ∈ added ∨ J ∈ ignored) ∧ rd'.cost = (tsp g.D rd'.node_set).2 ∧
          added ≠ [] ∧ ∀ n ∈ added, ∃ i, n ∈ g.NN_D i)) := by
  have hpos : pos < g.nodes.length := (List.getElem?_eq_some_iff.1 hJ).1
  have hN2 : g.N - 2 = g.nodes.length - 1 := by omega
  obtain ⟨k, hk⟩ := gmArgmin_some (key := g.key) hns
  have hprev : sweepStep (!fwd) pos (g.N - 2) < g.nodes.length := by rw [hN2]; exact sweepStep_lt _ hpos
  unfold gm_improvement
  simp only [hJ, hk, List.getElem?_eq_getElem hprev]
  rw [if_neg (by simp [hr])]
  obtain ⟨jjx, hjjx⟩ : ∃ j, (g.NN_D g.nodes[sweepStep (!fwd) pos (g.N - 2)]).find? (fun n => !routed n) = some j := by
    rw [← Option.isSome_iff_exists, List.find?_isSome]
    exact ⟨J, hnn _ J (List.mem_of_getElem? hJ), by simp [hr]⟩
  simp only [hjjx]
  have hj1 : ∃ i, jjx ∈ g.NN_D i := ⟨_, List.mem_of_find?_eq_some hjjx⟩
  unfold gmOne
  simp only
  generalize (if truthy g.C = true then rd.demand - g.d k + g.d jjx else 0) = x
  split
  · exact ⟨_, _, _, _, rfl, Or.inl ⟨rfl, rfl, rfl, rfl⟩⟩
  · obtain ⟨c, hc, hcp⟩ := gmLooks_ok g fwd routed k jjx
      ((g.NN_D jjx).find? fun n => !routed n && n != jjx) hN 5
      ⟨[], [], [], false, false, sweepStep (!fwd) pos (g.N - 2)⟩ hprev
    simp only [hc]
    split
    · exact ⟨_, _, _, _, rfl, Or.inl ⟨rfl, rfl, rfl, rfl⟩⟩
    · have hlast : sweepStep fwd c.pos (g.N - 2) < g.nodes.length := by rw [hN2]; exact sweepStep_lt _ hcp
      simp only [List.getElem?_eq_getElem hlast]
      generalize (if routed g.nodes[sweepStep fwd c.pos (g.N - 2)] = true then 0
        else g.nodes[sweepStep fwd c.pos (g.N - 2)]) = last
      split
      · refine ⟨_, _, _, _, rfl, Or.inr ⟨rfl, ?_, rfl, by simp, by simpa using hj1⟩⟩
        by_cases e : jjx = J
        · left; simp [e]
        · right; simp [e]
      · unfold gmTwo
        split
        · exact ⟨_, _, _, _, rfl, Or.inl ⟨rfl, rfl, rfl, rfl⟩⟩
        · rename_i jii hjii
          have hj2 : ∃ i, jii ∈ g.NN_D i := ⟨_, List.mem_of_find?_eq_some hjii⟩
          split
          · exact ⟨_, _, _, _, rfl, Or.inl ⟨rfl, rfl, rfl, rfl⟩⟩
          · simp only
            generalize (if truthy g.C = true then x + g.d jii else 0) = y
            split
            · exact ⟨_, _, _, _, rfl, Or.inl ⟨rfl, rfl, rfl, rfl⟩⟩
            · split
              · exact ⟨_, _, _, _, rfl, Or.inl ⟨rfl, rfl, rfl, rfl⟩⟩
              · refine ⟨_, _, _, _, rfl, Or.inr ⟨rfl, ?_, rfl, by simp, ?_⟩⟩
                · by_cases e : jjx = J
                  · left; simp [e]
                  · by_cases e2 : jii = J
                    · left; simp [e2]
                    · right; simp [e, e2]
                · intro n hn
                  rcases List.mem_cons.1 hn with rfl | hn
                  · exact hj1
                  · rw [List.mem_singleton.1 hn]; exact hj2

/-- What the callback may do with the route of the customers `t` at the position `pos`: leave it and call it
complete, or exchange a customer for others without a route within the limits, and skip the one removed and
the swept one if it is not added. -/
def SwCbStep (D : ℕ → ℕ → ℚ) (d : ℕ → ℚ) (C L : Option ℚ) (nodes : List ℕ) (tsp : Router)
    (routed : ℕ → Bool) (t : List ℕ) (pos : ℕ) (rd : SwRoute) (res : GmResult) : Prop :=
  res = (rd, [], [], true) ∨ ∃ rd' added k ignored, res = (rd', added, ignored, false) ∧
    k ∈ t ∧ added ≠ [] ∧ added.Nodup ∧ (∀ n ∈ added, n ∈ nodes ∧ routed n = false) ∧
    rd'.node_set = 0 :: (t.erase k ++ added) ∧ StoredOk D d C L nodes rd' ∧
    (truthy C = true → rd'.demand = demand d (t.erase k ++ added)) ∧
    rd'.cost = (tsp rd'.node_set).2 ∧ k ∈ ignored ∧
    (∀ m ∈ ignored, m = k ∨ (nodes[pos]? = some m ∧ m ∉ added)) ∧
    (∀ J, nodes[pos]? = some J → J ∈ added ∨ J ∈ ignored)

/-- The callback does that whenever the sweep calls it. -/
def SwCbOk (D : ℕ → ℕ → ℚ) (d : ℕ → ℚ) (C L : Option ℚ) (nodes : List ℕ) (tsp : Router) (cb : SwCallback) : Prop :=
  ∀ (rd : SwRoute) (routed : ℕ → Bool) (pos J : ℕ) (t : List ℕ), rd.node_set = 0 :: t →
    StoredOk D d C L nodes rd → (truthy C = true → rd.demand = demand d t) → routed 0 = true →
    (∀ n ∈ t, routed n = true) → nodes[pos]? = some J → routed J = false →
    ∃ res, cb rd routed pos = .ok res ∧ SwCbStep D d C L nodes tsp routed t pos rd res

theorem gm_swCbOk (tsp : TspSolver) (g : GmData) (fwd : Bool) (hperm : g.nodes.Perm (List.range' 1 (g.N - 1)))
    (hN : 1 ≤ g.N) (hnn : ∀ i, (g.NN_D i).Perm (List.range g.N)) (htsp : TspRoutine g.D (tsp g.D)) :
    SwCbOk g.D g.d g.C g.L g.nodes (tsp g.D) (gm_improvement tsp g fwd) := by
  intro rd routed pos J t hset hst hdem hr0 hrt hJ hrJ
  have hlen : g.nodes.length = g.N - 1 := by rw [hperm.length_eq, List.length_range']
  have hnd0 : 0 ∉ g.nodes := by
    intro h
    have := hperm.mem_iff.1 h
    rw [List.mem_range'_1] at this
    omega
  obtain ⟨u, t', e1, e2, e3, e4, -⟩ := hst
  rw [hset, List.cons.injEq] at e1
  obtain ⟨-, rfl⟩ := e1
  have hnd : (0 :: t).Nodup := List.nodup_cons.2 ⟨fun h => hnd0 (e4 0 h), e3⟩
  obtain ⟨rd', added, ignored, fin, hres, hcase⟩ := gm_improvement_cases tsp g fwd rd routed pos J (by omega) hJ hrJ
    (by rw [hset]; exact e2) (fun i m hm => by
      rw [(hnn i).mem_iff, List.mem_range]
      have := hperm.mem_iff.1 hm
      rw [List.mem_range'_1] at this
      omega)
  refine ⟨_, hres, ?_⟩
  have hex := C39_exchange tsp g fwd rd routed pos t hset hnd hr0 hrt htsp rd' added ignored fin hres
  rcases hcase with ⟨rfl, rfl, rfl, rfl⟩ | ⟨rfl, hJ', hcost, hne, hin⟩
  · exact Or.inl rfl
  · rcases hex with ⟨_, e, _⟩ | ⟨hC, hL, _, k, _, hx, hk, hign⟩
    · exact absurd e hne
    · refine Or.inr ⟨rd', added, k, ignored, rfl, hx.leaves, hne, hx.distinct, fun n hn => ?_, hx.nodes, ?_, fun _ => ?_,
        hcost, hk, hign, fun J2 hJ2 => ?_⟩
      · refine ⟨?_, hx.unrouted n hn⟩
        obtain ⟨i, hi⟩ := hin n hn
        rw [(hnn i).mem_iff, List.mem_range] at hi
        rw [hperm.mem_iff, List.mem_range'_1]
        have : n ≠ 0 := fun e => by
          have := hx.unrouted n hn
          rw [e, hr0] at this; cases this
        omega
      · have hdem' : rd'.demand = demand g.d (t.erase k ++ added) := by
          rw [hx.load, hdem hC, demand_append, demand_erase g.d hx.leaves]
        obtain ⟨u, hu, hu1, hu2⟩ := hx.record
        refine ⟨u, t.erase k ++ added, hx.nodes, by simp [hne], ?_, ?_, hu, hu1, hu2, ?_, ?_⟩
        · rw [List.nodup_append]
          refine ⟨e3.erase k, hx.distinct, fun a ha b hb e => ?_⟩
          have h1 := hrt a (List.mem_of_mem_erase ha)
          rw [e, hx.unrouted b hb] at h1; cases h1
        · intro n hn
          rcases List.mem_append.1 hn with h | h
          · exact e4 n (List.mem_of_mem_erase h)
          · obtain ⟨i, hi⟩ := hin n h
            rw [(hnn i).mem_iff, List.mem_range] at hi
            rw [hperm.mem_iff, List.mem_range'_1]
            have : n ≠ 0 := fun e => by
              have := hx.unrouted n h
              rw [e, hr0] at this; cases this
            omega
        · rw [demand_perm g.d hu, ← hdem']
          exact hx.withinC
        · rw [← hu2]
          exact hx.withinL
      · rw [hx.load, hdem hC, demand_append, demand_erase g.d hx.leaves]
      · rw [hJ, Option.some.injEq] at hJ2
        rw [← hJ2]; exact hJ'

/-! ## The steps of the loop -/

theorem posAt_back (fwd : Bool) {n : ℕ} (hn : 0 < n) (base k i : ℕ) (h : i ≤ k) :
    posAt (!fwd) n (posAt fwd n base k) i = posAt fwd n base (k - i) := by
  induction i with
  | zero => rw [posAt_zero _ (posAt_lt _ hn _ _)]; rfl
  | succ i ih =>
    rw [posAt_succ _ hn, ih (by omega)]
    obtain ⟨j, hj⟩ : ∃ j, k - i = j + 1 := ⟨k - i - 1, by omega⟩
    have hj' : k - (i + 1) = j := by omega
    rw [hj, hj', posAt_succ fwd hn base j]
    have := sweepStep_back (!fwd) (posAt_lt fwd hn base j)
    rwa [Bool.not_not] at this

theorem swIgnore_spec : ∀ (l : List ℕ) (s : SwStateB),
    (swIgnore l s).cur = s.cur ∧ (swIgnore l s).routes = s.routes ∧ (swIgnore l s).routed_cnt = s.routed_cnt ∧
    (swIgnore l s).ub = s.ub ∧ (swIgnore l s).complete = s.complete ∧ (swIgnore l s).pos = s.pos ∧
    (∀ x, (swIgnore l s).routed x = if x ∈ l then false else s.routed x) ∧
    (∀ x, x ∈ (swIgnore l s).blocked ↔ x ∈ l ∨ x ∈ s.blocked) ∧
    (∀ n, (swIgnore l s).node = some n ↔ s.node = some n ∧ n ∉ l)
  | [], s => by simp [swIgnore]
  | a :: t, s => by
    obtain ⟨h1, h2, h3, h4, h5, h6, h7, h8, h9⟩ := swIgnore_spec t { s with
      routed := setRouted s.routed a false
      blocked := a :: s.blocked
      node := if s.node = some a then none else s.node }
    refine ⟨h1, h2, h3, h4, h5, h6, fun x => ?_, fun x => ?_, fun n => ?_⟩
    · rw [swIgnore, h7]
      by_cases ht : x ∈ t
      · simp [ht]
      · by_cases ha : x = a
        · simp [ha, setRouted]
        · simp [ht, ha, setRouted]
    · rw [swIgnore, h8]
      simp only [List.mem_cons]
      tauto
    · rw [swIgnore, h9]
      simp only [List.mem_cons, not_or]
      by_cases ha : s.node = some a
      · rw [if_pos ha]
        constructor
        · rintro ⟨h, _⟩; cases h
        · rintro ⟨h, h', _⟩
          rw [ha, Option.some.injEq] at h
          exact absurd h.symm h'
      · rw [if_neg ha]
        constructor
        · rintro ⟨h, h'⟩
          exact ⟨h, fun e => ha (e ▸ h), h'⟩
        · rintro ⟨h, _, h'⟩
          exact ⟨h, h'⟩

theorem foldl_setRouted (l : List ℕ) : ∀ (r : ℕ → Bool) (x : ℕ),
    l.foldl (fun r n => setRouted r n true) r x = if x ∈ l then true else r x := by
  induction l with
  | nil => intro r x; simp
  | cons a t ih =>
    intro r x
    rw [List.foldl_cons, ih]
    by_cases ht : x ∈ t
    · simp [ht]
    · by_cases ha : x = a
      · simp [ha, setRouted]
      · simp [ht, ha, setRouted]

/-- The state at the head of the loop. -/
structure HeadB (D : ℕ → ℕ → ℚ) (d : ℕ → ℚ) (C L : Option ℚ) (nodes : List ℕ) (S t : List ℕ)
    (s : SwStateB) : Prop where
  inv : SwInv D d C L nodes false S t s.toSwState
  r0 : s.routed 0 = true
  blk : t = [] → s.blocked = []
  fresh : ∀ n, s.node = some n → n ∉ s.blocked

/-- The state before the step to the next node. -/
structure MidB (D : ℕ → ℕ → ℚ) (d : ℕ → ℚ) (C L : Option ℚ) (nodes : List ℕ) (S t : List ℕ)
    (s : SwStateB) : Prop where
  base : SwBase D d C L nodes false S t { s.toSwState with node := none }
  comp : s.complete = false
  r0 : s.routed 0 = true
  blk : t = [] → s.blocked = [] ∧ ∃ m ∈ nodes, m ∉ S

/-- The positions of the route: `r` are the customers after the last exchange, `a` those added since, which
lie among the positions `kb` to `k` from `base` on, and all customers before the position `k` have a route or
are skipped. -/
structure Arc (L : Option ℚ) (fwd : Bool) (nodes : List ℕ) (tsp : Router) (t : List ℕ) (routed : ℕ → Bool)
    (blocked r a : List ℕ) (base kb k : ℕ) : Prop where
  split : t = r ++ a
  feas : r = [] ∨ exceeds L S_EPS (tsp (0 :: r)).2 = false
  added : ∀ x ∈ a, ∃ i, kb ≤ i ∧ i < k ∧ nodes[posAt fwd nodes.length base i]? = some x
  cov : ∀ i, i < k → ∀ x, nodes[posAt fwd nodes.length base i]? = some x → routed x = true ∨ x ∈ blocked
  le1 : kb ≤ k
  le2 : k ≤ nodes.length

/-- A shorter list of customers does not cost more. -/
def MonoTsp (tsp : Router) : Prop :=
  ∀ t' t : List ℕ, t'.Sublist t → t' ≠ [] → (0 :: t).Nodup → (tsp (0 :: t')).2 ≤ (tsp (0 :: t)).2

theorem swMoveB_spec {S t : List ℕ} {s : SwStateB} (h : MidB D d C L nodes S t s) :
    ∃ s', Ends (fun fuel => swMoveB fwd nodes fuel s) s' ∧ HeadB D d C L nodes S t s' ∧
      ∀ r a base kb k, Arc L fwd nodes tsp t s.routed s.blocked r a base kb k →
        sweepStep fwd s.pos (nodes.length - 1) = posAt fwd nodes.length base k →
        s'.node = none ∨ ∃ k', k ≤ k' ∧ k' < nodes.length ∧ s'.pos = posAt fwd nodes.length base k' ∧
          Arc L fwd nodes tsp t s'.routed s'.blocked r a base kb k' := by
  have hp : s.pos < nodes.length := h.base.pos
  obtain ⟨⟨pos, o⟩, hx, F, hF⟩ := swScan_spec fwd nodes (fun n => s.routed n || s.blocked.contains n) hp
  have hFF := hF F (le_refl _)
  simp only at hFF
  rcases hx with ⟨n, e1, e2, e3⟩ | ⟨e, hall⟩
  · simp only at e1 e2
    subst e1
    simp only [Bool.or_eq_false_iff, List.contains_eq_mem, decide_eq_false_iff_not] at e3
    refine ⟨{ s with pos := pos, node := some n }, ⟨F, fun fuel hf => ?_⟩, ⟨⟨⟨h.base.set, h.base.stored,
      h.base.served, h.base.nodup, h.base.sub, h.base.routed, h.base.cnt, h.base.dem, h.base.cap,
      (List.getElem?_eq_some_iff.1 e2).1, ?_⟩, fun _ _ => h.comp, fun hn => by simp at hn⟩, h.r0,
      fun ht => (h.blk ht).1, ?_⟩, ?_⟩
    · have := hF fuel hf
      simp only at this
      simp only [swMoveB, this]
    · intro m hm
      have : n = m := by simpa using hm
      subst this
      refine ⟨e2, fun hin => ?_⟩
      have := (h.base.routed n (List.mem_of_getElem? e2)).2 hin
      simp only at this
      rw [this] at e3; simp at e3
    · intro m hm
      have : n = m := by simpa using hm
      subst this
      exact e3.2
    · intro r a base kb k harc hk
      right
      have hz : posAt fwd nodes.length s.pos 0 = s.pos := posAt_zero fwd hp
      obtain ⟨i, hi1, hi2, hi3, hi4, hi5⟩ := swScan_pass (fwd := fwd) hp F 0 pos n (by rw [hz]; exact hFF)
      have hshift : ∀ j, 1 ≤ j → posAt fwd nodes.length s.pos j = posAt fwd nodes.length base (k + (j - 1)) := by
        intro j hj
        obtain ⟨j, rfl⟩ : ∃ j', j = j' + 1 := ⟨j - 1, by omega⟩
        clear hj
        induction j with
        | zero =>
          rw [posAt_succ fwd (by omega), hz, hk]; rfl
        | succ j ih =>
          rw [posAt_succ fwd (by omega), ih, sweepStep_posAt fwd (by omega)]
          congr 1
      have hcov : ∀ j, j < k + (i - 1) → ∀ x, nodes[posAt fwd nodes.length base j]? = some x →
          s.routed x = true ∨ x ∈ s.blocked := by
        intro j hj x hx
        by_cases hjk : j < k
        · exact harc.cov j hjk x hx
        · have := hi5 (j - k + 1) (by omega) (by omega) x (by
            rw [hshift _ (by omega)]
            have : k + (j - k + 1 - 1) = j := by omega
            rw [this]; exact hx)
          simpa using this
      have hlt : k + (i - 1) < nodes.length := by
        by_contra hge
        have hpos : posAt fwd nodes.length base (k + (i - 1)) =
            posAt fwd nodes.length base (k + (i - 1) - nodes.length) := by
          have e : k + (i - 1) = (k + (i - 1) - nodes.length) + nodes.length := by omega
          conv_lhs => rw [e]
          unfold posAt
          rw [Nat.mul_add, ← Nat.add_assoc, Nat.add_mul_mod_self_right]
        have hn' : nodes[posAt fwd nodes.length base (k + (i - 1) - nodes.length)]? = some n := by
          rw [← hpos, ← hshift i hi1, ← hi2]
          exact e2
        rcases hcov (k + (i - 1) - nodes.length) (by omega) n hn' with h1 | h1
        · rw [e3.1] at h1; simp at h1
        · exact e3.2 h1
      refine ⟨k + (i - 1), by omega, hlt, ?_, harc.split, harc.feas, fun x hx => ?_, hcov, ?_, by omega⟩
      · show pos = _
        rw [hi2, hshift i hi1]
      · obtain ⟨j, h1, h2, h3⟩ := harc.added x hx
        exact ⟨j, h1, by omega, h3⟩
      · have := harc.le1; omega
  · rw [Prod.mk.injEq] at e
    obtain ⟨rfl, rfl⟩ := e
    refine ⟨{ s with pos := s.pos, node := none, complete := true, blocked := [] }, ⟨F, fun fuel hf => ?_⟩,
      ⟨⟨⟨h.base.set, h.base.stored, h.base.served, h.base.nodup, h.base.sub, h.base.routed, h.base.cnt,
        h.base.dem, h.base.cap, hp, fun m hm => by simp at hm⟩, fun n hn => by simp at hn, fun _ => ⟨rfl, ?_⟩⟩,
        h.r0, fun _ => rfl, fun n hn => by simp at hn⟩, fun _ _ _ _ _ _ _ => Or.inl rfl⟩
    · have := hF fuel hf
      simp only at this
      simp only [swMoveB, this]
    · intro ht
      obtain ⟨hb, m, hm, hm'⟩ := h.blk ht
      have := hall m hm
      rw [hb] at this
      simp only [List.contains_nil, Bool.or_false] at this
      have := (h.base.routed m hm).1 this
      rw [ht] at this
      simp at this
      exact hm' this

theorem swAdd_keep {s s' : SwState} (h : swAdd D d C L s = .ok s') :
    s'.pos = s.pos ∧ ∀ x, s.routed x = true → s'.routed x = true := by
  unfold swAdd at h
  split at h
  · cases h; exact ⟨rfl, fun x hx => hx⟩
  · split at h
    · cases h; exact ⟨rfl, fun x hx => hx⟩
    · split at h
      · cases h
      · cases h
        refine ⟨rfl, fun x hx => ?_⟩
        simp only [setRouted]
        split
        · rfl
        · exact hx

/-- Which nodes the cost limit takes away, and where the sweep goes back to. -/
theorem swRoute_back (h0 : 0 ∉ nodes) {s s2 : SwState} {t : List ℕ} (hset : s.cur.node_set = 0 :: t) (hnd : t.Nodup)
    (hp : s.pos < nodes.length) {fuel : ℕ} (h : swRoute d C L fwd nodes tsp fuel s = .ok (some s2)) :
    s2.routed 0 = s.routed 0 ∧ ∃ m t', s2.cur.node_set = 0 :: t' ∧ s2.pos = posAt (!fwd) nodes.length s.pos m ∧
      ((m = 0 ∧ t' = t) ∨ (1 ≤ m ∧
        (∀ y ∈ t, y ∉ t' → ∃ i, 1 ≤ i ∧ i ≤ m ∧ nodes[posAt (!fwd) nodes.length s.pos i]? = some y) ∧
        ∃ t'', t'' ≠ [] ∧ t''.Sublist t ∧ exceeds L S_EPS (tsp (0 :: t'')).2 = true ∧
          ∀ y ∈ t'', ∀ i, 1 ≤ i → i < m → nodes[posAt (!fwd) nodes.length s.pos i]? ≠ some y)) := by
  have hz : posAt (!fwd) nodes.length s.pos 0 = s.pos := posAt_zero _ hp
  unfold swRoute at h
  simp only at h
  split at h
  · split at h
    · cases h
    · cases h
    · rename_i cur routed lpos he
      obtain ⟨g1, m, t', g2, g3, _, g4⟩ := ensureL_back (tsp := tsp) h0 hp fuel
        { s.cur with route := (tsp s.cur.node_set).1, cost := (tsp s.cur.node_set).2 } s.routed t 0 0 s.pos
        (cur, routed, lpos) hset (by rw [hset]) hnd (fun y _ i h1 h2 => by omega) hz.symm (by rw [hz]; exact he)
      simp only at g1 g2 g3
      have key : ∀ s2 : SwState, s2.cur = cur → s2.routed = routed → s2.pos = lpos →
          s2.routed 0 = s.routed 0 ∧ ∃ m t', s2.cur.node_set = 0 :: t' ∧ s2.pos = posAt (!fwd) nodes.length s.pos m ∧
          ((m = 0 ∧ t' = t) ∨ (1 ≤ m ∧
            (∀ y ∈ t, y ∉ t' → ∃ i, 1 ≤ i ∧ i ≤ m ∧ nodes[posAt (!fwd) nodes.length s.pos i]? = some y) ∧
            ∃ t'', t'' ≠ [] ∧ t''.Sublist t ∧ exceeds L S_EPS (tsp (0 :: t'')).2 = true ∧
              ∀ y ∈ t'', ∀ i, 1 ≤ i → i < m → nodes[posAt (!fwd) nodes.length s.pos i]? ≠ some y)) := by
        intro s2 e1 e2 e3
        refine ⟨by rw [e2, g1], m, t', by rw [e1, g2], by rw [e3, g3], ?_⟩
        rcases g4 with g4 | ⟨g4, _, g5, g6⟩
        · exact Or.inl g4
        · exact Or.inr ⟨by omega, fun y hy hy' => by
            obtain ⟨i, h1, h2, h3⟩ := g5 y hy hy'
            exact ⟨i, by omega, h2, h3⟩, g6⟩
      split at h
      · split at h
        · cases h; exact key _ rfl rfl rfl
        · cases h
        · cases h; exact key _ rfl rfl rfl
      · rename_i hl
        have hl : lpos = s.pos := by simpa using hl
        cases h; exact key _ rfl rfl hl.symm
  · cases h
    exact ⟨rfl, 0, t, hset, hz.symm, Or.inl ⟨rfl, rfl⟩⟩

/-- The store of a complete route. -/
theorem swStoreB_spec {S t : List ℕ} {s : SwStateB} (hnn : nodes.Nodup)
    (hd : ∀ n, 0 ≤ d n) (hser : ∀ n ∈ nodes, RouteOk D d C L [n])
    (h : SwBase D d C L nodes false S t s.toSwState) (hne : t ≠ []) (hst : StoredOk D d C L nodes s.cur)
    (hc : s.complete = true) :
    (∃ routes, swStoreB nodes.length s = .done routes ∧ SwDone D d C L nodes false routes) ∨
    ∃ s', swStoreB nodes.length s = .next s' ∧ SwPre D d C L nodes false (S ++ t) [] s'.toSwState ∧
      s'.blocked = [] ∧ s'.node = s.node ∧ s'.pos = s.pos ∧ s'.routed = s.routed := by
  have hl2 : 1 < s.cur.node_set.length := by
    rw [h.set, List.length_cons]
    have := List.length_pos_iff.2 hne
    omega
  have hcnt : s.routed_cnt + (s.cur.node_set.length - 1) = (S ++ t).length := by
    rw [h.cnt, h.set]; simp
  have hall : ∀ rd ∈ s.routes ++ [s.cur], StoredOk D d C L nodes rd := by
    intro rd hrd
    rcases List.mem_append.1 hrd with h1 | h1
    · exact h.stored rd h1
    · rw [List.mem_singleton.1 h1]; exact hst
  have hserved : S ++ t = (s.routes ++ [s.cur]).flatMap (fun rd => rd.node_set.tail) := by
    have := h.served
    simp only [Bool.false_eq_true, if_false] at this
    rw [List.flatMap_append, ← this]
    simp [h.set]
  have hstore : swStore false nodes.length s.toSwState =
      if nodes.length ≤ (S ++ t).length then .done (s.routes ++ [s.cur])
      else .next { s.toSwState with routes := s.routes ++ [s.cur]
                                    routed_cnt := (S ++ t).length
                                    cur := .new, ub := 0, complete := false } := by
    unfold swStore
    rw [if_pos hc]
    simp only [hl2, decide_true, if_true, Bool.false_eq_true, if_false, hcnt]
  by_cases hfull : nodes.length ≤ (S ++ t).length
  · left
    rw [if_pos hfull] at hstore
    refine ⟨s.routes ++ [s.cur], by rw [swStoreB, if_pos hc, hstore], hall, by simp, fun _ => ?_⟩
    rw [← hserved]
    exact perm_of_full h.nodup h.sub hfull
  · right
    rw [if_neg hfull] at hstore
    refine ⟨{ s with routes := s.routes ++ [s.cur]
                     routed_cnt := (S ++ t).length
                     cur := .new, ub := 0, complete := false, blocked := [] },
      by rw [swStoreB, if_pos hc, hstore], ⟨⟨rfl, hall, ?_, ?_, ?_, ?_, rfl, fun _ => rfl, ?_, h.pos, ?_⟩,
      rfl, ?_, ?_⟩, rfl, rfl, rfl, rfl⟩
    · rw [if_neg (by simp)]; exact hserved
    · simpa using h.nodup
    · simpa using h.sub
    · simpa using h.routed
    · exact within_mono h.cap (demand_sublist hd (List.nil_sublist _))
    · intro n hn
      simpa using h.node n hn
    · intro n hn
      simpa using (hser n (h.mem_node hn)).1
    · intro _
      exact ⟨rfl, exists_left hnn (by omega)⟩

/-- Progress: another route is stored, or an exchange is made further on, or a customer is added. -/
def Less (n : ℕ) (S S' : List ℕ) (kb k kb' k' : ℕ) : Prop :=
  kb' ≤ k' ∧ k' ≤ n ∧ (S.length < S'.length ∨ (S' = S ∧ (kb < kb' ∨ (kb' = kb ∧ k < k'))))

/-- After the store of a route. -/
theorem stepStore {S t : List ℕ} {s : SwStateB} (h0 : 0 ∉ nodes) (hne : t ≠ [])
    (h : SwPre D d C L nodes false (S ++ t) [] s.toSwState) (hb : s.blocked = []) (hr0 : s.routed 0 = true) :
    ∃ s2 S' t', swAdd D d C L s.toSwState = .ok s2 ∧
      MidB D d C L nodes S' t' { s2 with blocked := s.blocked } ∧
      ∀ kb k, ∃ r a base kb' k', Arc L fwd nodes tsp t' s2.routed s.blocked r a base kb' k' ∧
        sweepStep fwd s2.pos (nodes.length - 1) = posAt fwd nodes.length base k' ∧
        Less nodes.length S S' kb k kb' k' := by
  obtain ⟨t', s', e, hbase, hc, hcase⟩ := swAdd_spec h0 h
  obtain ⟨ep, er⟩ := swAdd_keep e
  have hp : s'.pos < nodes.length := hbase.pos
  have hlen : S.length < (S ++ t).length := by
    rw [List.length_append]
    have := List.length_pos_iff.2 hne
    omega
  refine ⟨s', S ++ t, t', e, ⟨hbase, hc, er 0 hr0, fun ht => ⟨hb, ?_⟩⟩, fun kb k => ?_⟩
  · rcases hcase with ⟨n, _, e'⟩ | ⟨_, _, hm⟩
    · rw [ht] at e'; simp at e'
    · exact hm
  · rcases hcase with ⟨n, hn, rfl⟩ | ⟨_, rfl, _⟩
    · have hnp := (h.node n hn).1
      rw [← ep] at hnp
      refine ⟨[], [n], s'.pos, 0, 1, ⟨rfl, Or.inl rfl, fun x hx => ⟨0, le_refl _, by omega, ?_⟩,
        fun i hi x hx => Or.inl ?_, by omega, by omega⟩, ?_, by omega, by omega, Or.inl hlen⟩
      · rw [List.mem_singleton.1 hx, posAt_zero fwd hp]; exact hnp
      · have : i = 0 := by omega
        rw [this, posAt_zero fwd hp, hnp, Option.some.injEq] at hx
        have hmem : n ∈ nodes := List.mem_of_getElem? hnp
        rw [← hx]
        exact (hbase.routed n hmem).2 (by simp)
      · rw [posAt_succ fwd (by omega), posAt_zero fwd hp]
    · have hlt := sweepStep_lt fwd hp
      exact ⟨[], [], sweepStep fwd s'.pos (nodes.length - 1), 0, 0, ⟨rfl, Or.inl rfl, fun x hx => by simp at hx,
        fun i hi => by omega, by omega, by omega⟩, by rw [posAt_zero fwd hlt], by omega, by omega, Or.inl hlen⟩

/-- What an iteration of the loop leads to before the step to the next node. -/
def StepB (D : ℕ → ℕ → ℚ) (d : ℕ → ℚ) (C L : Option ℚ) (fwd : Bool) (nodes : List ℕ) (tsp : Router)
    (cb : SwCallback) (S t : List ℕ) (s : SwStateB) : Prop :=
  (∃ routes, Ends (fun fuel => swHeadB d C L fwd nodes tsp cb fuel s) (.done routes) ∧
    SwDone D d C L nodes false routes) ∨
  (∃ s1 s2 S' t', Ends (fun fuel => swHeadB d C L fwd nodes tsp cb fuel s) (.next s1) ∧
    swAdd D d C L s1.toSwState = .ok s2 ∧ MidB D d C L nodes S' t' { s2 with blocked := s1.blocked } ∧
    (MonoTsp tsp → ∀ r a base kb k,
      (∀ n, s.node = some n → Arc L fwd nodes tsp t s.routed s.blocked r a base kb k ∧
        s.pos = posAt fwd nodes.length base k ∧ k < nodes.length) →
      ∃ r' a' base' kb' k', Arc L fwd nodes tsp t' s2.routed s1.blocked r' a' base' kb' k' ∧
        sweepStep fwd s2.pos (nodes.length - 1) = posAt fwd nodes.length base' k' ∧
        Less nodes.length S S' kb k kb' k'))

/-- A sublist without the second part is one of the first. -/
theorem sublist_left {t r a : List ℕ} (h : t.Sublist (r ++ a)) (hd : ∀ x ∈ t, x ∉ a) : t.Sublist r := by
  obtain ⟨t1, t2, rfl, h1, h2⟩ := List.sublist_append_iff.1 h
  have : t2 = [] := by
    cases t2 with
    | nil => rfl
    | cons x t2 => exact absurd (h2.subset (by simp)) (hd x (by simp))
  rw [this, List.append_nil]
  exact h1

theorem stepB {cb : SwCallback} {S t : List ℕ} {s : SwStateB} (h0 : 0 ∉ nodes) (hnn : nodes.Nodup)
    (hd : ∀ n, 0 ≤ d n) (htsp : TspRoutine D tsp) (hser : ∀ n ∈ nodes, RouteOk D d C L [n])
    (hcb : SwCbOk D d C L nodes tsp cb) (h : HeadB D d C L nodes S t s) :
    StepB D d C L fwd nodes tsp cb S t s := by
  obtain ⟨s1, e1, hb1, hc1, hs1, hf1⟩ := swTest_spec h0 htsp hser h.inv
  -- what the test keeps
  have hkeep : s1.pos = s.pos ∧ s1.node = s.node ∧ s1.routed = s.routed := by
    unfold swTest at e1
    split at e1
    · cases e1; exact ⟨rfl, rfl, rfl⟩
    · split at e1
      · split at e1
        · cases e1
        · cases e1; exact ⟨rfl, rfl, rfl⟩
      · split at e1
        · cases e1; exact ⟨rfl, rfl, rfl⟩
        · split at e1
          · cases e1; exact ⟨rfl, rfl, rfl⟩
          · cases e1; exact ⟨rfl, rfl, rfl⟩
  obtain ⟨kp, kn, kr⟩ := hkeep
  by_cases hgo : s1.complete = true
  · have hne : t ≠ [] := hc1 hgo
    obtain ⟨t', s2, ⟨F, hF⟩, hb2, hne2, hst2, hc2, hk2⟩ := swRoute_spec (fwd := fwd) h0 hd htsp hser hb1 hne hs1
    have hFF := hF F (le_refl _)
    simp only at hFF
    obtain ⟨q1, m, tq, q2, q3, q4⟩ := swRoute_back (fwd := fwd) h0 hb1.set
      (List.nodup_append.1 hb1.nodup).2.1 hb1.pos hFF
    rw [hb2.set, List.cons.injEq] at q2
    obtain ⟨-, rfl⟩ := q2
    have hcomp : s2.complete = true := hc2 hgo
    have hr0 : s2.routed 0 = true := by rw [q1, kr]; exact h.r0
    have step : ∀ s3, swImprove cb { s2 with blocked := s.blocked } = .ok s3 → ∀ fuel, F ≤ fuel →
        swHeadB d C L fwd nodes tsp cb fuel s = .ok (some (swStoreB nodes.length s3)) := by
      intro s3 h3 fuel hf
      have := hF fuel hf
      simp only at this
      simp only [swHeadB, e1]
      rw [if_pos hgo]
      simp only [this, h3]
    -- the route is stored
    have store : ∀ s3 : SwStateB, swImprove cb { s2 with blocked := s.blocked } = .ok s3 →
        SwBase D d C L nodes false S t' s3.toSwState → StoredOk D d C L nodes s3.cur → s3.complete = true →
        s3.routed 0 = true → StepB D d C L fwd nodes tsp cb S t s := by
      intro s3 h3 hb3 hst3 hc3 hr3
      rcases swStoreB_spec hnn hd hser hb3 hne2 hst3 hc3 with ⟨routes, hr, hdone⟩ | ⟨s4, hn4, hpre, hbl, _, _, hro⟩
      · left
        exact ⟨routes, ⟨F, fun fuel hf => by
          show swHeadB d C L fwd nodes tsp cb fuel s = _
          rw [step s3 h3 fuel hf, hr]⟩, hdone⟩
      · right
        obtain ⟨s5, S', t5, g1, g2, g3⟩ := stepStore (fwd := fwd) (tsp := tsp) h0 hne2 hpre hbl (by rw [hro]; exact hr3)
        exact ⟨s4, s5, S', t5, ⟨F, fun fuel hf => by
          show swHeadB d C L fwd nodes tsp cb fuel s = _
          rw [step s3 h3 fuel hf, hn4]⟩, g1, g2, fun _ r a base kb k _ => g3 kb k⟩
    rcases Option.eq_none_or_eq_some s2.node with hn | ⟨J, hJ⟩
    · exact store { s2 with blocked := s.blocked } (by simp only [swImprove, hn]) hb2 hst2 hcomp hr0
    · obtain ⟨hJp, hJn⟩ := hb2.node J hJ
      have hJm : J ∈ nodes := hb2.mem_node hJ
      have hJr : s2.routed J = false := by
        rw [← Bool.not_eq_true, hb2.routed J hJm]; exact hJn
      have hrt : ∀ n ∈ t', s2.routed n = true := fun n hn =>
        (hb2.routed n (hb2.sub n (List.mem_append_right _ hn))).2 (List.mem_append_right _ hn)
      obtain ⟨res, hres, hstep⟩ := hcb s2.cur s2.routed s2.pos J t' hb2.set hst2 hb2.dem hr0 hrt hJp hJr
      rcases hstep with rfl | ⟨rd', added, k, ignored, rfl, c1, c2, c3, c4, c5, c6, c7, c8, c9, c10, c11⟩
      · exact store { s2 with blocked := s.blocked, ub := s2.cur.cost } (by
          simp only [swImprove, hJ, hres, swIgnore, List.foldl_nil]
          rw [← hJ, ← hcomp]) ⟨hb2.set, hb2.stored, hb2.served, hb2.nodup, hb2.sub, hb2.routed, hb2.cnt, hb2.dem,
            hb2.cap, hb2.pos, hb2.node⟩ hst2 hcomp hr0
      · -- an exchange
        have hnd1 := List.nodup_append.1 hb2.nodup
        have hkS : k ∉ S := fun hS => hnd1.2.2 k hS k c1 rfl
        have hka : k ∉ added := fun ha => by
          have := (c4 k ha).2
          rw [hrt k c1] at this; simp at this
        have hke : k ∉ t'.erase k := hnd1.2.1.not_mem_erase
        obtain ⟨s3, hs3⟩ : ∃ s3, s3 = swIgnore ignored { s2 with
            cur := rd', complete := false, ub := rd'.cost
            routed := added.foldl (fun r n => setRouted r n true) s2.routed, blocked := s.blocked } := ⟨_, rfl⟩
        obtain ⟨f1, f2, f3, f4, f5, f6, f7, f8, f9⟩ := swIgnore_spec ignored { s2 with
            cur := rd', complete := false, ub := rd'.cost
            routed := added.foldl (fun r n => setRouted r n true) s2.routed, blocked := s.blocked }
        rw [← hs3] at f1 f2 f3 f4 f5 f6 f7 f8 f9
        simp only [foldl_setRouted] at f1 f2 f3 f4 f5 f6 f7 f8 f9
        have himp : swImprove cb { s2 with blocked := s.blocked } = .ok s3 := by
          simp only [swImprove, hJ, hres, hs3]
        have hJa : J ∉ ignored → J ∈ added := fun hi => (c11 J hJp).resolve_right hi
        have hadd : swAdd D d C L s3.toSwState = .ok s3.toSwState := by
          rcases Option.eq_none_or_eq_some s3.node with hn | ⟨n, hn⟩
          · simp only [swAdd, hn]
          · obtain ⟨h1, h2⟩ := (f9 n).1 hn
            rw [hJ, Option.some.injEq] at h1
            subst h1
            simp only [swAdd, hn]
            rw [if_pos]
            rw [f7, if_neg h2, if_pos (hJa h2)]
        have hrouted : ∀ n ∈ nodes, s3.routed n = true ↔ n ∈ S ++ (t'.erase k ++ added) := by
          intro n hn
          rw [f7]
          by_cases hi : n ∈ ignored
          · rw [if_pos hi]
            simp only [Bool.false_eq_true, false_iff, List.mem_append, not_or]
            rcases c10 n hi with rfl | ⟨h1, h2⟩
            · exact ⟨hkS, hke, hka⟩
            · rw [hJp, Option.some.injEq] at h1
              subst h1
              rw [List.mem_append, not_or] at hJn
              exact ⟨hJn.1, fun he => hJn.2 (List.mem_of_mem_erase he), h2⟩
          · rw [if_neg hi]
            have hnk : n ≠ k := fun e => hi (e ▸ c9)
            by_cases ha : n ∈ added
            · simp [ha]
            · rw [if_neg ha, hb2.routed n hn]
              simp [ha, List.mem_erase_of_ne hnk]
        have hsubt : ∀ n ∈ t'.erase k ++ added, n ∈ nodes := by
          intro n hn
          rcases List.mem_append.1 hn with h1 | h1
          · exact hb2.sub n (List.mem_append_right _ (List.mem_of_mem_erase h1))
          · exact (c4 n h1).1
        have hdis : ∀ n ∈ added, n ∉ S ++ t' := fun n hn hm => by
          have := (hb2.routed n (c4 n hn).1).2 hm
          rw [(c4 n hn).2] at this; simp at this
        have hnodup : (S ++ (t'.erase k ++ added)).Nodup := by
          rw [← List.append_assoc, List.nodup_append]
          refine ⟨hb2.nodup.sublist (List.Sublist.append_left List.erase_sublist S), c3, fun x hx y hy e => ?_⟩
          refine hdis y hy (e ▸ ?_)
          rcases List.mem_append.1 hx with h1 | h1
          · exact List.mem_append_left _ h1
          · exact List.mem_append_right _ (List.mem_of_mem_erase h1)
        have hcap : Within C C_EPS (demand d (t'.erase k ++ added)) := by
          obtain ⟨u, v, u1, _, _, _, u2, _, _, u3⟩ := c6
          rw [c5, List.cons.injEq] at u1
          rw [u1.2, ← demand_perm d u2]
          exact u3.1
        have hbase : SwBase D d C L nodes false S (t'.erase k ++ added) { s3.toSwState with node := none } :=
          ⟨by show s3.cur.node_set = _; rw [f1]; exact c5, by show ∀ rd ∈ s3.routes, _; rw [f2]; exact hb2.stored,
            by show S = if false = true then [] else s3.routes.flatMap _; rw [f2]; exact hb2.served,
            hnodup, fun n hn => by
              rcases List.mem_append.1 hn with h1 | h1
              · exact hb2.sub n (List.mem_append_left _ h1)
              · exact hsubt n h1, hrouted, by show s3.routed_cnt = _; rw [f3]; exact hb2.cnt,
            by show _ → s3.cur.demand = _; rw [f1]; exact c7, hcap,
            by show s3.pos < _; rw [f6]; exact hb2.pos, fun n hn => by simp at hn⟩
        right
        refine ⟨s3, s3.toSwState, S, t'.erase k ++ added, ⟨F, fun fuel hf => ?_⟩, hadd, ⟨hbase, f5, ?_, ?_⟩, ?_⟩
        · show swHeadB d C L fwd nodes tsp cb fuel s = _
          rw [step s3 himp fuel hf, swStoreB, if_neg (by rw [f5]; simp)]
        · show s3.routed 0 = true
          rw [f7, if_neg, hr0]
          · simp
          · intro hi
            rcases c10 0 hi with e | ⟨e, _⟩
            · exact h0 (e ▸ hb2.sub k (List.mem_append_right _ c1))
            · exact h0 (List.mem_of_getElem? e)
        · intro he
          have := (List.append_eq_nil_iff.1 he).2
          exact absurd this c2
        · intro hmono r a base kb kk harc
          obtain ⟨n1, hn1⟩ : ∃ n, s.node = some n := by
            rcases Option.eq_none_or_eq_some s.node with hn | hn
            · exfalso
              have : s1.node = none := by rw [kn, hn]
              -- the removal does not set a node
              have hs2 : s2.node = none := by
                unfold swRoute at hFF
                simp only at hFF
                split at hFF
                · split at hFF
                  · cases hFF
                  · cases hFF
                  · split at hFF
                    · rw [this] at hFF; cases hFF; rfl
                    · cases hFF; exact this
                · cases hFF; exact this
              rw [hs2] at hJ; simp at hJ
            · exact hn
          obtain ⟨harc, hpk, hk⟩ := harc n1 hn1
          have hnpos : 0 < nodes.length := by omega
          have hback : ∀ i, i ≤ kk → posAt (!fwd) nodes.length s1.pos i = posAt fwd nodes.length base (kk - i) := by
            intro i hi
            rw [kp, hpk, posAt_back fwd hnpos base kk i hi]
          -- the sweep does not go back behind the last exchange
          have hm : m ≤ kk - kb := by
            rcases q4 with ⟨e, _⟩ | ⟨_, _, t'', g1, g2, g3, g4⟩
            · omega
            · by_contra hgt
              have hsub : t''.Sublist r := by
                refine sublist_left (harc.split ▸ g2) fun x hx hxa => ?_
                obtain ⟨i, i1, i2, i3⟩ := harc.added x hxa
                refine g4 x hx (kk - i) (by omega) (by omega) ?_
                rw [hback _ (by omega)]
                have : kk - (kk - i) = i := by omega
                rw [this]; exact i3
              rcases harc.feas with e | e
              · rw [e] at hsub
                exact g1 (List.sublist_nil.1 hsub)
              · have hndr : (0 :: r).Nodup := by
                  rw [List.nodup_cons]
                  have hsr : ∀ x ∈ r, x ∈ S ++ t := fun x hx => by rw [harc.split]; simp [hx]
                  refine ⟨fun h => h0 (hb1.sub 0 (hsr 0 h)), ?_⟩
                  have := (List.nodup_append.1 hb1.nodup).2.1
                  rw [harc.split] at this
                  exact (List.nodup_append.1 this).1
                have hle := hmono t'' r hsub g1 hndr
                rw [exceeds_iff] at e
                have := (exceeds_iff _ _ _).2 (within_mono e hle)
                rw [this] at g3; simp at g3
          have hmk : m ≤ kk := by omega
          have hle1 := harc.le1
          have hpos2 : s2.pos = posAt fwd nodes.length base (kk - m) := by rw [q3, hback m hmk]
          refine ⟨t'.erase k ++ added, [], base, kk - m + 1, kk - m + 1, ⟨by simp, Or.inr ?_, fun x hx => by simp at hx,
            fun i hi x hx => ?_, le_refl _, by omega⟩, ?_, le_refl _, by omega, Or.inr ⟨rfl, Or.inl (by omega)⟩⟩
          · rw [← c5, ← c8, exceeds_iff]
            obtain ⟨u, v, _, _, _, _, _, _, u2, u3⟩ := c6
            rw [u2]
            exact u3.2
          · have hxm : x ∈ nodes := List.mem_of_getElem? hx
            have hdone : ∀ {P : Prop}, x ∈ S ++ (t'.erase k ++ added) → s3.routed x = true ∨ P :=
              fun hx => Or.inl ((hrouted x hxm).2 hx)
            by_cases e : i = kk - m
            · rw [e, ← hpos2, hJp, Option.some.injEq] at hx
              subst hx
              rcases c11 J hJp with ha | hi
              · exact hdone (by simp [ha])
              · exact Or.inr ((f8 J).2 (Or.inl hi))
            · rcases harc.cov i (by omega) x hx with h1 | h1
              · have hst := (hb1.routed x hxm).1 (by rw [kr]; exact h1)
                rcases List.mem_append.1 hst with hS | ht
                · exact hdone (by simp [hS])
                · have hxt' : x ∈ t' := by
                    rcases q4 with ⟨_, e⟩ | ⟨_, g, _⟩
                    · rw [e]; exact ht
                    · by_contra hx'
                      obtain ⟨i', i1, i2, i3⟩ := g x ht hx'
                      rw [hback i' (by omega)] at i3
                      have hlt1 := posAt_lt fwd hnpos base (kk - i')
                      have hlt2 := posAt_lt fwd hnpos base i
                      rw [List.getElem?_eq_getElem hlt1, Option.some.injEq] at i3
                      rw [List.getElem?_eq_getElem hlt2, Option.some.injEq] at hx
                      have := hnn.getElem_inj_iff.1 (i3.trans hx.symm)
                      have := posAt_inj fwd (by omega) (by omega) this
                      omega
                  by_cases ek : x = k
                  · exact Or.inr ((f8 x).2 (Or.inl (ek ▸ c9)))
                  · exact hdone (by simp [List.mem_erase_of_ne ek, hxt'])
              · exact Or.inr ((f8 x).2 (Or.inr h1))
          · rw [f6, hpos2, sweepStep_posAt fwd hnpos]
  · right
    have hc1' : s1.complete = false := by simpa using hgo
    have hpre : SwPre D d C L nodes false S t s1 := ⟨hb1, hc1', fun n hn => hf1 n hn hc1', fun hn => by
      obtain ⟨n, hn'⟩ := hs1 hc1'
      rw [hn] at hn'; simp at hn'⟩
    obtain ⟨n, hn⟩ := hs1 hc1'
    obtain ⟨t', s', e, hbase, hc, hcase⟩ := swAdd_spec h0 hpre
    obtain ⟨ep, er⟩ := swAdd_keep e
    obtain rfl : t' = t ++ [n] := by
      rcases hcase with ⟨n', hn', e'⟩ | ⟨hn', _⟩
      · rw [hn, Option.some.injEq] at hn'
        rw [e', hn']
      · rw [hn] at hn'; simp at hn'
    refine ⟨{ s1 with blocked := s.blocked }, s', S, t ++ [n], ⟨0, fun fuel _ => ?_⟩, e,
      ⟨hbase, hc, er 0 (by rw [kr]; exact h.r0), fun ht => by simp at ht⟩, fun _ r a base kb k harc => ?_⟩
    · simp only [swHeadB, e1]
      rw [if_neg hgo]
    · obtain ⟨harc, hpk, hk⟩ := harc n (by rw [← kn]; exact hn)
      have hnp := (hb1.node n hn).1
      rw [kp, hpk] at hnp
      have hmem : n ∈ nodes := List.mem_of_getElem? hnp
      refine ⟨r, a ++ [n], base, kb, k + 1, ⟨by rw [harc.split, List.append_assoc], harc.feas, fun x hx => ?_,
        fun i hi x hx => ?_, by have := harc.le1; omega, by omega⟩, ?_, by have := harc.le1; omega, by omega,
        Or.inr ⟨rfl, Or.inr ⟨rfl, by omega⟩⟩⟩
      · rcases List.mem_append.1 hx with hx | hx
        · obtain ⟨i, h1, h2, h3⟩ := harc.added x hx
          exact ⟨i, h1, by omega, h3⟩
        · rw [List.mem_singleton.1 hx]
          exact ⟨k, harc.le1, by omega, hnp⟩
      · by_cases e : i = k
        · rw [e, hnp, Option.some.injEq] at hx
          rw [← hx]
          exact Or.inl ((hbase.routed n hmem).2 (by simp))
        · rcases harc.cov i (by omega) x hx with h1 | h1
          · exact Or.inl (er x (by rw [kr]; exact h1))
          · exact Or.inr h1
      · rw [ep, kp, hpk, sweepStep_posAt fwd (by omega)]

/-! ## The loop -/

/-- More fuel does not change an answer. -/
def Stable {α : Type} (f : ℕ → Py (Option α)) : Prop := ∀ a b, a ≤ b → f a ≠ .ok none → f b = f a

theorem Stable.ends {α : Type} {f : ℕ → Py (Option α)} (h : Stable f) {r : α} (he : Ends f r) (a : ℕ) :
    f a = .ok none ∨ f a = .ok (some r) := by
  obtain ⟨F, hF⟩ := he
  by_cases hn : f a = .ok none
  · exact Or.inl hn
  · right
    rw [← h a (a + F) (by omega) hn, hF (a + F) (by omega)]

theorem stable_of_succ {α : Type} {f : ℕ → Py (Option α)} (h : ∀ a, f a ≠ .ok none → f (a + 1) = f a) : Stable f := by
  intro a b hab hn
  induction b with
  | zero =>
    have : a = 0 := by omega
    rw [this]
  | succ b ih =>
    by_cases e : a = b + 1
    · rw [e]
    · have e1 := ih (by omega)
      rw [h b (by rw [e1]; exact hn), e1]

theorem ensureL_stable (cur : SwRoute) (routed : ℕ → Bool) (pos lpos : ℕ) :
    Stable fun fuel => ensureL d C L fwd nodes tsp fuel cur routed pos lpos := by
  refine stable_of_succ fun a => ?_
  induction a generalizing cur routed pos lpos with
  | zero => intro h; simp [ensureL] at h
  | succ a ih =>
    intro h
    rw [ensureL] at h ⊢
    conv_rhs => rw [ensureL]
    split
    · rfl
    · rename_i hne
      rw [if_neg hne] at h
      simp only at h ⊢
      split
      · rfl
      · rename_i hi
        simp only [hi] at h
        split
        · rename_i hm
          rw [if_pos hm] at h
          exact ih _ _ _ _ h
        · rename_i hm
          rw [if_neg hm] at h
          exact ih _ _ _ _ h

theorem swScan_stable (routed : ℕ → Bool) (start pos : ℕ) :
    Stable fun fuel => swScan fwd nodes routed start fuel pos := by
  refine stable_of_succ fun a => ?_
  induction a generalizing pos with
  | zero => intro h; simp [swScan] at h
  | succ a ih =>
    intro h
    rw [swScan] at h ⊢
    conv_rhs => rw [swScan]
    split
    · rfl
    · rename_i hi
      simp only [hi] at h
      split
      · rfl
      · rename_i h1
        rw [if_neg h1] at h
        split
        · rfl
        · rename_i h2
          rw [if_neg h2] at h
          exact ih _ h

theorem swRoute_stable (s : SwState) : Stable fun fuel => swRoute d C L fwd nodes tsp fuel s := by
  intro a b hab h
  simp only at h ⊢
  unfold swRoute at h ⊢
  simp only at h ⊢
  split
  · rename_i hL
    rw [if_pos hL] at h
    have := ensureL_stable (d := d) (C := C) (L := L) (fwd := fwd) (nodes := nodes) (tsp := tsp)
      { s.cur with route := (tsp s.cur.node_set).1, cost := (tsp s.cur.node_set).2 } s.routed s.pos s.pos a b hab
      (by intro e; simp only at e; rw [e] at h; exact h rfl)
    simp only at this
    rw [this]
  · rfl

theorem swHeadB_stable (cb : SwCallback) (s : SwStateB) :
    Stable fun fuel => swHeadB d C L fwd nodes tsp cb fuel s := by
  intro a b hab h
  simp only at h ⊢
  unfold swHeadB at h ⊢
  split
  · rfl
  · rename_i s1 h1
    simp only [h1] at h
    split
    · rename_i hc
      rw [if_pos hc] at h
      have := swRoute_stable (d := d) (C := C) (L := L) (fwd := fwd) (nodes := nodes) (tsp := tsp) s1 a b hab
        (by intro e; simp only at e; rw [e] at h; exact h rfl)
      simp only at this
      rw [this]
    · rfl

theorem swMoveB_stable (s : SwStateB) : Stable fun fuel => swMoveB fwd nodes fuel s := by
  intro a b hab h
  simp only at h ⊢
  unfold swMoveB at h ⊢
  have := swScan_stable (fwd := fwd) (nodes := nodes) (fun n => s.routed n || s.blocked.contains n) s.pos s.pos a b hab
    (by intro e; simp only at e; rw [e] at h; exact h rfl)
  simp only at this
  rw [this]

/-- Whenever the loop ends, with whatever fuel, its answer is right, and it raises nothing. -/
theorem sweepLoopB_partial {cb : SwCallback} (h0 : 0 ∉ nodes) (hnn : nodes.Nodup)
    (hd : ∀ n, 0 ≤ d n) (htsp : TspRoutine D tsp) (hser : ∀ n ∈ nodes, RouteOk D d C L [n])
    (hcb : SwCbOk D d C L nodes tsp cb) (inner fuel : ℕ) :
    ∀ (S t : List ℕ) (s : SwStateB), HeadB D d C L nodes S t s →
      sweepLoopB D d C L fwd nodes tsp cb inner fuel s = .ok none ∨
      ∃ routes, sweepLoopB D d C L fwd nodes tsp cb inner fuel s = .ok (some routes) ∧
        SwDone D d C L nodes false routes := by
  induction fuel with
  | zero => intro S t s _; left; rfl
  | succ fuel ih =>
    intro S t s h
    rcases stepB (fwd := fwd) h0 hnn hd htsp hser hcb h with ⟨routes, he, hdone⟩ | ⟨s1, s2, S', t', he, ha, hmid, -⟩
    · rcases (swHeadB_stable cb s).ends he inner with e | e
      · left; simp only [sweepLoopB, e]
      · right; exact ⟨routes, by simp only [sweepLoopB, e], hdone⟩
    · rcases (swHeadB_stable cb s).ends he inner with e | e
      · left; simp only [sweepLoopB, e]
      · obtain ⟨s3, he3, hhead, -⟩ := swMoveB_spec (fwd := fwd) (tsp := tsp) hmid
        rcases (swMoveB_stable (fwd := fwd) (nodes := nodes) _).ends he3 inner with e3 | e3
        · left; simp only [sweepLoopB, e, ha, e3]
        · simp only [sweepLoopB, e, ha, e3]
          exact ih S' t' s3 hhead

/-- With a routine whose cost does not grow when customers are left out, the loop ends. -/
theorem sweepLoopB_ends {cb : SwCallback} (h0 : 0 ∉ nodes) (hnn : nodes.Nodup)
    (hd : ∀ n, 0 ≤ d n) (htsp : TspRoutine D tsp) (hser : ∀ n ∈ nodes, RouteOk D d C L [n])
    (hcb : SwCbOk D d C L nodes tsp cb) (hmono : MonoTsp tsp) (μ : ℕ) :
    ∀ (S t : List ℕ) (s : SwStateB) (r a : List ℕ) (base kb k : ℕ), HeadB D d C L nodes S t s →
      kb ≤ nodes.length → k ≤ nodes.length →
      (∀ n, s.node = some n → Arc L fwd nodes tsp t s.routed s.blocked r a base kb k ∧
        s.pos = posAt fwd nodes.length base k ∧ k < nodes.length) →
      (nodes.length - S.length) * (nodes.length + 1) * (nodes.length + 1) + (nodes.length - kb) * (nodes.length + 1) +
        (nodes.length - k) ≤ μ →
      ∃ routes, SwDone D d C L nodes false routes ∧ ∃ F, ∀ inner fuel, F ≤ inner → F ≤ fuel →
        sweepLoopB D d C L fwd nodes tsp cb inner fuel s = .ok (some routes) := by
  induction μ with
  | zero =>
    intro S t s r a base kb k h hkb hk harc hμ
    rcases stepB (fwd := fwd) h0 hnn hd htsp hser hcb h with ⟨routes, ⟨F, hF⟩, hdone⟩ | ⟨s1, s2, S', t', he, ha, hmid, harc'⟩
    · refine ⟨routes, hdone, F + 1, fun inner fuel hi hf => ?_⟩
      obtain ⟨fuel, rfl⟩ : ∃ f, fuel = f + 1 := ⟨fuel - 1, by omega⟩
      have := hF inner (by omega)
      simp only at this
      simp only [sweepLoopB, this]
    · exfalso
      obtain ⟨r', a', base', kb', k', -, -, hl1, hl2, hl⟩ := harc' hmono r a base kb k harc
      have hlen := (List.subperm_of_subset hmid.base.nodup hmid.base.sub).length_le
      rw [List.length_append] at hlen
      have h1 : (nodes.length - S.length) = 0 := by
        by_contra hne
        have : 0 < (nodes.length - S.length) * (nodes.length + 1) * (nodes.length + 1) := by positivity
        omega
      have h2 : nodes.length - kb = 0 := by
        by_contra hne
        have : 0 < (nodes.length - kb) * (nodes.length + 1) := by positivity
        omega
      rcases hl with hl | ⟨rfl, hl | hl⟩ <;> omega
  | succ μ ih =>
    intro S t s r a base kb k h hkb hk harc hμ
    rcases stepB (fwd := fwd) h0 hnn hd htsp hser hcb h with ⟨routes, ⟨F, hF⟩, hdone⟩ | ⟨s1, s2, S', t', ⟨F, hF⟩, ha, hmid, harc'⟩
    · refine ⟨routes, hdone, F + 1, fun inner fuel hi hf => ?_⟩
      obtain ⟨fuel, rfl⟩ : ∃ f, fuel = f + 1 := ⟨fuel - 1, by omega⟩
      have := hF inner (by omega)
      simp only at this
      simp only [sweepLoopB, this]
    · obtain ⟨r', a', base', kb', k', hA, hP, hl1, hl2, hl⟩ := harc' hmono r a base kb k harc
      have hlen := (List.subperm_of_subset hmid.base.nodup hmid.base.sub).length_le
      rw [List.length_append] at hlen
      obtain ⟨s3, ⟨F3, hF3⟩, hhead, hnext⟩ := swMoveB_spec (fwd := fwd) (tsp := tsp) hmid
      have hdec : ∀ k'', k' ≤ k'' → k'' ≤ nodes.length →
          (nodes.length - S'.length) * (nodes.length + 1) * (nodes.length + 1) +
          (nodes.length - kb') * (nodes.length + 1) + (nodes.length - k'') ≤ μ := by
        intro k'' hk1 hk2
        rcases hl with hl | ⟨rfl, hl | ⟨rfl, hl⟩⟩
        · have e1 : (nodes.length - S'.length + 1) * (nodes.length + 1) * (nodes.length + 1) ≤
              (nodes.length - S.length) * (nodes.length + 1) * (nodes.length + 1) :=
            Nat.mul_le_mul_right _ (Nat.mul_le_mul_right _ (by omega))
          have e2 : (nodes.length - kb') * (nodes.length + 1) ≤ nodes.length * (nodes.length + 1) :=
            Nat.mul_le_mul_right _ (by omega)
          rw [Nat.add_mul, Nat.add_mul, Nat.one_mul, Nat.add_mul nodes.length 1 (nodes.length + 1), Nat.one_mul] at e1
          omega
        · have e1 : (nodes.length - kb' + 1) * (nodes.length + 1) ≤ (nodes.length - kb) * (nodes.length + 1) :=
            Nat.mul_le_mul_right _ (by omega)
          rw [Nat.add_mul, Nat.one_mul] at e1
          omega
        · omega
      obtain ⟨routes, hdone, F4, hF4⟩ : ∃ routes, SwDone D d C L nodes false routes ∧ ∃ F, ∀ inner fuel, F ≤ inner →
          F ≤ fuel → sweepLoopB D d C L fwd nodes tsp cb inner fuel s3 = .ok (some routes) := by
        rcases hnext r' a' base' kb' k' hA hP with hn | ⟨k'', g1, g2, g3, g4⟩
        · exact ih S' t' s3 r' a' base' kb' k' hhead (by omega) hl2 (fun n hn' => by rw [hn] at hn'; simp at hn')
            (hdec k' (le_refl _) hl2)
        · exact ih S' t' s3 r' a' base' kb' k'' hhead (by omega) (by omega) (fun n _ => ⟨g4, g3, g2⟩)
            (hdec k'' g1 (by omega))
      refine ⟨routes, hdone, F + F3 + F4 + 1, fun inner fuel hi hf => ?_⟩
      obtain ⟨fuel, rfl⟩ : ∃ f, fuel = f + 1 := ⟨fuel - 1, by omega⟩
      have e1 := hF inner (by omega)
      have e3 := hF3 inner (by omega)
      simp only at e1 e3
      simp only [sweepLoopB, e1, ha, e3]
      exact hF4 inner fuel (by omega) (by omega)

theorem sweepLoopB_stable (cb : SwCallback) {inner inner' : ℕ} (hi : inner ≤ inner') (fuel : ℕ) :
    ∀ (fuel' : ℕ) (s : SwStateB), fuel ≤ fuel' → sweepLoopB D d C L fwd nodes tsp cb inner fuel s ≠ .ok none →
      sweepLoopB D d C L fwd nodes tsp cb inner' fuel' s = sweepLoopB D d C L fwd nodes tsp cb inner fuel s := by
  induction fuel with
  | zero => intro fuel' s _ h; simp [sweepLoopB] at h
  | succ fuel ih =>
    intro fuel' s hf h
    obtain ⟨fuel', rfl⟩ : ∃ f, fuel' = f + 1 := ⟨fuel' - 1, by omega⟩
    rw [sweepLoopB] at h ⊢
    have e1 := swHeadB_stable (d := d) (C := C) (L := L) (fwd := fwd) (nodes := nodes) (tsp := tsp) cb s inner inner' hi
      (by intro e; simp only at e; rw [e] at h; exact h rfl)
    simp only at e1
    rw [e1]
    conv_rhs => rw [sweepLoopB]
    split
    · rfl
    · rfl
    · rfl
    · rename_i s1 h1
      simp only [h1] at h
      split
      · rfl
      · rename_i s2 h2
        simp only [h2] at h
        have e3 := swMoveB_stable (fwd := fwd) (nodes := nodes) { s2 with blocked := s1.blocked } inner inner' hi
          (by intro e; simp only at e; rw [e] at h; exact h rfl)
        simp only at e3
        rw [e3]
        split
        · rfl
        · rfl
        · rename_i s3 h3
          simp only [h3] at h
          exact ih fuel' s3 (by omega) h

theorem do_one_sweep_cb_stable (cb : SwCallback) (start : ℕ) :
    Stable fun fuel => do_one_sweep_cb fuel D d C L tsp nodes cb start fwd := by
  intro a b hab h
  simp only at h ⊢
  unfold do_one_sweep_cb at h ⊢
  split
  · rfl
  · rename_i n hn
    simp only [hn] at h
    exact sweepLoopB_stable cb hab a b _ hab h

theorem head_start {start n : ℕ} (h0 : 0 ∉ nodes) (hd : ∀ n, 0 ≤ d n) (hser : ∀ n ∈ nodes, RouteOk D d C L [n])
    (hs : nodes[start]? = some n) :
    HeadB D d C L nodes [] []
      { routes := [], routed := fun n => n == 0, routed_cnt := 0, cur := .new, ub := 0,
        complete := false, pos := start, node := some n, blocked := [] } := by
  have hmem := List.mem_of_getElem? hs
  refine ⟨⟨⟨rfl, by simp, by simp, by simp, by simp, fun m hm => ?_, rfl, fun _ => rfl, ?_,
    (List.getElem?_eq_some_iff.1 hs).1, fun m hm => ?_⟩, fun _ _ => rfl, fun hn => by simp at hn⟩, rfl, fun _ => rfl,
    fun m _ => by simp⟩
  · have : m ≠ 0 := fun e => h0 (e ▸ hm)
    simp [this]
  · exact within_mono (hser n hmem).1 (demand_sublist hd (List.nil_sublist _))
  · have : n = m := by simpa using hm
    exact ⟨this ▸ hs, by simp⟩

/-- One sweep: whenever it ends its routes are right, and it raises nothing. -/
theorem do_one_sweep_cb_partial {cb : SwCallback} {start : ℕ} (h0 : 0 ∉ nodes) (hnn : nodes.Nodup)
    (hd : ∀ n, 0 ≤ d n) (htsp : TspRoutine D tsp) (hser : ∀ n ∈ nodes, RouteOk D d C L [n])
    (hcb : SwCbOk D d C L nodes tsp cb) (hs : start < nodes.length) (fuel : ℕ) :
    do_one_sweep_cb fuel D d C L tsp nodes cb start fwd = .ok none ∨
    ∃ routes, do_one_sweep_cb fuel D d C L tsp nodes cb start fwd = .ok (some routes) ∧
      SwDone D d C L nodes false routes := by
  unfold do_one_sweep_cb
  simp only [idx_lt hs]
  exact sweepLoopB_partial h0 hnn hd htsp hser hcb fuel fuel _ _ _
    (head_start h0 hd hser (List.getElem?_eq_getElem hs))

theorem do_one_sweep_cb_ends {cb : SwCallback} {start : ℕ} (h0 : 0 ∉ nodes) (hnn : nodes.Nodup)
    (hd : ∀ n, 0 ≤ d n) (htsp : TspRoutine D tsp) (hser : ∀ n ∈ nodes, RouteOk D d C L [n])
    (hcb : SwCbOk D d C L nodes tsp cb) (hmono : MonoTsp tsp) (hs : start < nodes.length) :
    ∃ routes, SwDone D d C L nodes false routes ∧
      Ends (fun fuel => do_one_sweep_cb fuel D d C L tsp nodes cb start fwd) routes := by
  obtain ⟨routes, hdone, F, hF⟩ := sweepLoopB_ends (fwd := fwd) h0 hnn hd htsp hser hcb hmono _ [] [] _ [] [] start 0 0
    (head_start h0 hd hser (List.getElem?_eq_getElem hs)) (by omega) (by omega)
    (fun n _ => ⟨⟨rfl, Or.inl rfl, by simp, fun i hi => by omega, le_refl _, by omega⟩, (posAt_zero fwd hs).symm, by omega⟩)
    (le_refl _)
  refine ⟨routes, hdone, F, fun fuel hf => ?_⟩
  simp only [do_one_sweep_cb, idx_lt hs]
  exact hF fuel fuel hf hf

/-! ## A callback that changes nothing -/

theorem swMoveB_plain (s : SwStateB) (hb : s.blocked = []) (fuel : ℕ) :
    swMoveB fwd nodes fuel s =
      match swMove fwd nodes fuel s.toSwState with
      | .error e => .error e
      | .ok none => .ok none
      | .ok (some s') => .ok (some { s' with blocked := [] }) := by
  unfold swMoveB swMove
  have : (fun n => s.routed n || s.blocked.contains n) = s.routed := by
    funext n
    simp [hb]
  rw [this]
  split
  · rename_i h; simp only [h]
  · rename_i h; simp only [h]
  · rename_i h; simp only [h, hb]
  · rename_i h; simp only [h]

theorem sweepLoopB_plain {cb : SwCallback} (h0 : 0 ∉ nodes) (hnn : nodes.Nodup)
    (hd : ∀ n, 0 ≤ d n) (htsp : TspRoutine D tsp) (hser : ∀ n ∈ nodes, RouteOk D d C L [n])
    (hcb : SwCbOk D d C L nodes tsp cb)
    (hplain : ∀ rd routed pos t J, rd.node_set = 0 :: t → (0 :: t).Nodup → routed 0 = true →
      (∀ n ∈ t, routed n = true) → nodes[pos]? = some J → routed J = false → t ≠ [] →
      cb rd routed pos = .ok (rd, [], [], true)) (inner fuel : ℕ) :
    ∀ (S t : List ℕ) (s : SwStateB), HeadB D d C L nodes S t s → s.blocked = [] →
      sweepLoopB D d C L fwd nodes tsp cb inner fuel s =
        sweepLoop D d C L fwd nodes tsp false inner fuel s.toSwState := by
  induction fuel with
  | zero => intro S t s _ _; rfl
  | succ fuel ih =>
    intro S t s h hb
    -- the head of the loop
    have hhead : swHeadB d C L fwd nodes tsp cb inner s =
        match swHead d C L fwd nodes tsp false inner s.toSwState with
        | .error e => .error e
        | .ok none => .ok none
        | .ok (some (.done r)) => .ok (some (.done r))
        | .ok (some (.next s')) => .ok (some (.next { s' with blocked := [] })) := by
      obtain ⟨s1, e1, hb1, hc1, hs1, hf1⟩ := swTest_spec h0 htsp hser h.inv
      have kr : s1.routed = s.routed := by
        unfold swTest at e1
        split at e1
        · cases e1; rfl
        · split at e1
          · split at e1
            · cases e1
            · cases e1; rfl
          · split at e1
            · cases e1; rfl
            · split at e1
              · cases e1; rfl
              · cases e1; rfl
      simp only [swHeadB, swHead, e1, Bool.false_and, Bool.or_false]
      by_cases hgo : s1.complete = true
      · rw [if_pos hgo, if_pos hgo]
        obtain ⟨t', s2, hends, hb2, hne2, hst2, hc2, hk2⟩ := swRoute_spec (fwd := fwd) h0 hd htsp hser hb1 (hc1 hgo) hs1
        rcases (swRoute_stable s1).ends hends inner with e | e
        · simp only [e]
        · simp only [e]
          obtain ⟨q1, -⟩ := swRoute_back (fwd := fwd) h0 hb1.set
            (List.nodup_append.1 hb1.nodup).2.1 hb1.pos e
          have hub : s2.ub = s2.cur.cost := by
            unfold swRoute at e
            simp only at e
            split at e
            · split at e
              · cases e
              · cases e
              · split at e
                · split at e
                  · cases e; rfl
                  · cases e
                  · cases e; rfl
                · cases e; rfl
            · cases e; rfl
          have himp : swImprove cb { s2 with blocked := s.blocked } = .ok { s2 with blocked := [] } := by
            rcases Option.eq_none_or_eq_some s2.node with hn | ⟨J, hJ⟩
            · simp only [swImprove, hn, hb]
            · obtain ⟨hJp, hJn⟩ := hb2.node J hJ
              have hJm : J ∈ nodes := hb2.mem_node hJ
              have hJr : s2.routed J = false := by
                rw [← Bool.not_eq_true, hb2.routed J hJm]; exact hJn
              have hrt : ∀ n ∈ t', s2.routed n = true := fun n hn =>
                (hb2.routed n (hb2.sub n (List.mem_append_right _ hn))).2 (List.mem_append_right _ hn)
              have := hplain s2.cur s2.routed s2.pos t' J hb2.set (List.nodup_cons.2
                ⟨fun h => h0 (hb2.sub 0 (List.mem_append_right _ h)), (List.nodup_append.1 hb2.nodup).2.1⟩)
                (by rw [q1, kr]; exact h.r0) hrt hJp hJr hne2
              simp only [swImprove, hJ, this, swIgnore, List.foldl_nil, hb]
              rw [← hJ, ← hc2 hgo, ← hub]
          simp only [himp, swStoreB, hc2 hgo, if_true]
          cases swStore false nodes.length s2 <;> rfl
      · rw [if_neg hgo, if_neg hgo]
        simp only [hb]
    have hstep := stepB (fwd := fwd) h0 hnn hd htsp hser hcb h
    rw [sweepLoopB, sweepLoop, hhead]
    cases hh : swHead d C L fwd nodes tsp false inner s.toSwState with
    | error e => rfl
    | ok o =>
      cases o with
      | none => rfl
      | some x =>
        cases x with
        | done r => rfl
        | next s' =>
          rw [hh] at hhead
          simp only at hhead ⊢
          rcases hstep with ⟨routes, he, _⟩ | ⟨s1, s2, S', t', he, ha, hmid, -⟩
          · rcases (swHeadB_stable cb s).ends he inner with e | e
            · rw [hhead] at e; cases e
            · rw [hhead] at e; cases e
          · rcases (swHeadB_stable cb s).ends he inner with e | e
            · rw [hhead] at e; cases e
            · rw [hhead] at e
              simp only [Except.ok.injEq, Option.some.injEq, SwNextB.next.injEq] at e
              subst e
              simp only at ha hmid
              simp only [ha]
              rw [swMoveB_plain _ rfl]
              obtain ⟨s3, he3, hhead3, -⟩ := swMoveB_spec (fwd := fwd) (tsp := tsp) hmid
              cases hm : swMove fwd nodes inner s2 with
              | error e => rfl
              | ok o =>
                cases o with
                | none => rfl
                | some s4 =>
                  simp only
                  have := (swMoveB_stable (fwd := fwd) (nodes := nodes) _).ends he3 inner
                  rw [swMoveB_plain _ rfl, hm] at this
                  simp only [Except.ok.injEq, reduceCtorEq, Option.some.injEq, false_or] at this
                  exact ih S' t' _ (this ▸ hhead3) rfl

end

end Verif
