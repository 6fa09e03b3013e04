import Verif.Lemmas.GillettMiller
import Verif.Lemmas.Solves
import Verif.Props.Sweep
import Mathlib.Data.Nat.ModEq

/-! # C39: the improvement callback of the Gillett-Miller sweep -/

namespace Verif

open Spec

namespace Spec

/-- What the callback may do to a route with the customers `t` when it changes it: the customer `k`
leaves it, one or two customers without a route join it, the limits hold and the record is the one of
the new route. -/
structure Exchanged (D : ℕ → ℕ → ℚ) (d : ℕ → ℚ) (C L : Option ℚ) (routed : ℕ → Bool) (t : List ℕ)
    (rd rd' : SwRoute) (added : List ℕ) (k : ℕ) : Prop where
  leaves : k ∈ t
  some_added : added ≠ []
  at_most_two : added.length ≤ 2
  distinct : added.Nodup
  unrouted : ∀ n ∈ added, routed n = false
  nodes : rd'.node_set = 0 :: (t.erase k ++ added)
  record : ∃ u, u.Perm (t.erase k ++ added) ∧ rd'.route = wrap u ∧ rd'.cost = cost D (wrap u)
  load : rd'.demand = rd.demand - d k + demand d added
  withinL : Within L S_EPS rd'.cost
  withinC : Within C C_EPS rd'.demand

/-- The customers without a route among the next five of the sweep from the position `pos` on. -/
def nextFive (nodes : List ℕ) (fwd : Bool) (routed : ℕ → Bool) (pos : ℕ) : List ℕ :=
  ((List.range 5).filterMap fun i =>
    nodes[(pos + (if fwd then 1 else nodes.length - 1) * i) % nodes.length]?).filter fun n => !routed n

end Spec

/-- Whatever the callback does, the route is either left as it is, or exactly one customer is exchanged
for one or two customers that had no route, within both limits, and the record of the route is right.
The second case needs both a capacity and a cost limit. -/
theorem C39_exchange (tsp : TspSolver) (g : GmData) (fwd : Bool) (rd : SwRoute) (routed : ℕ → Bool)
    (pos : ℕ) (t : List ℕ) (hns : rd.node_set = 0 :: t) (hnd : (0 :: t).Nodup) (h0 : routed 0 = true)
    (ht : ∀ n ∈ t, routed n = true) (htsp : TspRoutine g.D (tsp g.D))
    (rd' : SwRoute) (added ignored : List ℕ) (fin : Bool)
    (h : gm_improvement tsp g fwd rd routed pos = .ok (rd', added, ignored, fin)) :
    (rd' = rd ∧ added = [] ∧ ignored = []) ∨
    (truthy g.C = true ∧ truthy g.L = true ∧ fin = false ∧
      ∃ k, (∀ m ∈ t, g.key k ≤ g.key m) ∧ Exchanged g.D g.d g.C g.L routed t rd rd' added k ∧
        k ∈ ignored ∧ ∀ m ∈ ignored, m = k ∨ (g.nodes[pos]? = some m ∧ m ∉ added)) := by
  unfold gm_improvement at h
  split at h
  · cases h
  rename_i node_J hJ
  split at h
  · cases h; exact .inl ⟨rfl, rfl, rfl⟩
  rename_i hJr
  split at h
  · cases h
  rename_i k hk
  rw [hns, List.tail_cons] at hk
  have hkt : k ∈ t := gmArgmin_mem hk
  simp only at h
  split at h
  · cases h
  rename_i prev hprev
  split at h
  · cases h; exact .inl ⟨rfl, rfl, rfl⟩
  rename_i jjx hjjx
  have hjr : routed jjx = false := by simpa using List.find?_some hjjx
  unfold gmOne at h
  simp only at h
  have hnot : ∀ n, routed n = false → n ∉ t ∧ n ≠ 0 := by
    intro n hn
    refine ⟨fun hm => ?_, fun e => ?_⟩
    · rw [ht n hm] at hn; cases hn
    · rw [e, h0] at hn; cases hn
  have hk0 : k ≠ 0 := fun e => (List.nodup_cons.1 hnd).1 (e ▸ hkt)
  have her : rd.node_set.erase k = 0 :: t.erase k := by
    rw [hns, List.erase_cons_tail (by simpa using Ne.symm hk0)]
  have hnew : ODS.dictSet (rd.node_set.erase k) jjx = 0 :: (t.erase k ++ [jjx]) := by
    rw [her, dictSet_new]
    · rfl
    · intro hm
      rcases List.mem_cons.1 hm with e | hm
      · exact (hnot jjx hjr).2 e
      · exact (hnot jjx hjr).1 (List.mem_of_mem_erase hm)
  have hnd2 : (0 :: (t.erase k ++ [jjx])).Nodup := by
    rw [List.nodup_cons] at hnd ⊢
    refine ⟨?_, ?_⟩
    · intro hm
      rcases List.mem_append.1 hm with hm | hm
      · exact hnd.1 (List.mem_of_mem_erase hm)
      · exact (hnot jjx hjr).2 (List.mem_singleton.1 hm).symm
    · rw [List.nodup_append]
      refine ⟨hnd.2.erase k, by simp, ?_⟩
      intro a ha b hb e
      rw [List.mem_singleton.1 hb] at e
      exact (hnot jjx hjr).1 (e ▸ List.mem_of_mem_erase ha)
  rw [hnew] at h
  generalize hx : (if truthy g.C = true then rd.demand - g.d k + g.d jjx else 0) = x at h
  split at h
  · cases h; exact .inl ⟨rfl, rfl, rfl⟩
  rename_i hw
  obtain ⟨hC, hL, hwL, hwC⟩ := gmWithin_spec (Bool.of_not_eq_false hw)
  rw [if_pos hC] at hx
  subst hx
  split at h
  · cases h
  rename_i c hc
  split at h
  · cases h; exact .inl ⟨rfl, rfl, rfl⟩
  split at h
  · cases h
  rename_i n hn
  generalize (if routed n = true then 0 else n) = last at h
  split at h
  · -- one customer for one
    cases h
    obtain ⟨u, hu, hut⟩ := htsp (t.erase k ++ [jjx]) (by simp) hnd2
    rw [hut] at hwL ⊢
    refine .inr ⟨hC, hL, rfl, k, gmArgmin_le hk, ?_, by simp, ?_⟩
    · exact
        { leaves := hkt
          some_added := by simp
          at_most_two := by simp
          distinct := by simp
          unrouted := by simpa using hjr
          nodes := rfl
          record := ⟨u, hu, rfl, rfl⟩
          load := by simp [demand]
          withinL := hwL
          withinC := hwC }
    · intro m hm
      rcases List.mem_cons.1 hm with e | hm
      · exact .inl e
      · split at hm
        · rename_i hne
          rw [List.mem_singleton.1 hm]
          exact .inr ⟨hJ, by simpa using Ne.symm hne⟩
        · cases hm
  · -- one customer for two
    unfold gmTwo at h
    split at h
    · cases h; exact .inl ⟨rfl, rfl, rfl⟩
    rename_i jii hjii
    have hji := List.find?_some hjii
    simp only [Bool.and_eq_true, Bool.not_eq_true', bne_iff_ne, ne_eq] at hji
    split at h
    · cases h; exact .inl ⟨rfl, rfl, rfl⟩
    have hnew5 : ODS.dictSet (0 :: (t.erase k ++ [jjx])) jii = 0 :: (t.erase k ++ [jjx, jii]) := by
      rw [dictSet_new]
      · simp
      · intro hm
        rcases List.mem_cons.1 hm with e | hm
        · exact (hnot jii hji.1).2 e
        · rcases List.mem_append.1 hm with hm | hm
          · exact (hnot jii hji.1).1 (List.mem_of_mem_erase hm)
          · exact hji.2 (List.mem_singleton.1 hm)
    have hnd5 : (0 :: (t.erase k ++ [jjx, jii])).Nodup := by
      have e : (0 :: (t.erase k ++ [jjx, jii])) = (0 :: (t.erase k ++ [jjx])) ++ [jii] := by simp
      rw [e, List.nodup_append]
      refine ⟨hnd2, by simp, ?_⟩
      intro a ha b hb e
      rw [List.mem_singleton.1 hb] at e
      subst e
      rcases List.mem_cons.1 ha with e | hm
      · exact (hnot a hji.1).2 e
      · rcases List.mem_append.1 hm with hm | hm
        · exact (hnot a hji.1).1 (List.mem_of_mem_erase hm)
        · exact hji.2 (List.mem_singleton.1 hm)
    simp only at h
    rw [hnew5] at h
    split at h
    · cases h; exact .inl ⟨rfl, rfl, rfl⟩
    rename_i hw5
    obtain ⟨_, _, hwL5, hwC5⟩ := gmWithin_spec (Bool.of_not_eq_false hw5)
    split at h
    · cases h; exact .inl ⟨rfl, rfl, rfl⟩
    cases h
    obtain ⟨u, hu, hut⟩ := htsp (t.erase k ++ [jjx, jii]) (by simp) hnd5
    rw [hut] at hwL5 ⊢
    refine .inr ⟨hC, hL, rfl, k, gmArgmin_le hk, ?_, by simp, ?_⟩
    · exact
        { leaves := hkt
          some_added := by simp
          at_most_two := by simp
          distinct := by simpa using Ne.symm hji.2
          unrouted := by simpa using ⟨hjr, hji.1⟩
          nodes := rfl
          record := ⟨u, hu, rfl, rfl⟩
          load := by simp [demand]; ring
          withinL := hwL5
          withinC := hwC5 }
    · intro m hm
      rcases List.mem_cons.1 hm with e | hm
      · exact .inl e
      · split at hm
        · rename_i hne
          rw [List.mem_singleton.1 hm]
          exact .inr ⟨hJ, by simpa using ⟨Ne.symm hne.1, Ne.symm hne.2⟩⟩
        · cases hm

/-- If the capacity or the route cost is not limited, the callback never changes a route: the emerging
route improvement is switched off. -/
theorem C39_needs_both (tsp : TspSolver) (g : GmData) (fwd : Bool) (rd : SwRoute) (routed : ℕ → Bool)
    (pos : ℕ) (t : List ℕ) (hns : rd.node_set = 0 :: t) (hnd : (0 :: t).Nodup) (h0 : routed 0 = true)
    (ht : ∀ n ∈ t, routed n = true) (htsp : TspRoutine g.D (tsp g.D))
    (hCL : truthy g.C = false ∨ truthy g.L = false) (rd' : SwRoute) (added ignored : List ℕ) (fin : Bool)
    (h : gm_improvement tsp g fwd rd routed pos = .ok (rd', added, ignored, fin)) :
    rd' = rd ∧ added = [] ∧ ignored = [] := by
  rcases C39_exchange tsp g fwd rd routed pos t hns hnd h0 ht htsp rd' added ignored fin h with h | h
  · exact h
  · rcases hCL with e | e
    · rw [h.1] at e; cases e
    · rw [h.2.1] at e; cases e

theorem sweepStep_back (fwd : Bool) {n pos : ℕ} (h : pos < n) :
    sweepStep fwd (sweepStep (!fwd) pos (n - 1)) (n - 1) = pos := by
  unfold sweepStep
  cases fwd
  · simp only [Bool.not_false, if_true, Bool.false_eq_true, if_false]
    split
    · rename_i h1; rw [if_pos rfl]; omega
    · rw [if_neg (by omega)]; omega
  · simp only [Bool.not_true, if_true, Bool.false_eq_true, if_false]
    split
    · rename_i h1; rw [if_pos (by omega)]; omega
    · rw [if_neg (by omega)]; omega

theorem sweepStep_lt (fwd : Bool) {n pos : ℕ} (h : pos < n) : sweepStep fwd pos (n - 1) < n := by
  rw [sweepStep_eq fwd h]
  exact Nat.mod_lt _ (by omega)

theorem posAt_inj (fwd : Bool) {n pos a b : ℕ} (ha : a < n) (hb : b < n)
    (h : posAt fwd n pos a = posAt fwd n pos b) : a = b := by
  have hm : Nat.ModEq n a b := by
    unfold posAt at h
    cases fwd
    · simp only [Bool.false_eq_true, if_false] at h
      have h1 : Nat.ModEq n (pos + (n - 1) * a + (a + b)) (pos + (n - 1) * b + (a + b)) :=
        Nat.ModEq.add_right _ h
      have e1 : pos + (n - 1) * a + (a + b) = pos + b + n * a := by
        have : (n - 1) * a + a = n * a := by rw [← Nat.succ_mul]; congr 1; omega
        omega
      have e2 : pos + (n - 1) * b + (a + b) = pos + a + n * b := by
        have : (n - 1) * b + b = n * b := by rw [← Nat.succ_mul]; congr 1; omega
        omega
      rw [e1, e2] at h1
      have h2 : Nat.ModEq n (pos + b) (pos + a) := by
        unfold Nat.ModEq at h1 ⊢
        rwa [Nat.add_mul_mod_self_left, Nat.add_mul_mod_self_left] at h1
      exact (Nat.ModEq.add_left_cancel' pos h2).symm
    · simp only [if_true, Nat.one_mul] at h
      exact Nat.ModEq.add_left_cancel' pos h
  unfold Nat.ModEq at hm
  rwa [Nat.mod_eq_of_lt ha, Nat.mod_eq_of_lt hb] at hm

namespace Spec

/-- The callback is called at the customer `J` for a route with the customers `t`, both limits are set, `k`
is the customer of the route with the least key (the first such), `j` the customer without a route that is
nearest to the one before the current position, and `stop` the sixth customer from the current one on. -/
structure GmCall (g : GmData) (fwd : Bool) (rd : SwRoute) (routed : ℕ → Bool) (pos J k j stop : ℕ)
    (t pre post : List ℕ) (c l : ℚ) : Prop where
  cap : g.C = some c
  cap0 : c ≠ 0
  lim : g.L = some l
  lim0 : l ≠ 0
  size : g.N = g.nodes.length + 1
  five : 5 ≤ g.nodes.length
  nodes : g.nodes.Nodup
  set : rd.node_set = 0 :: t
  nodup : (0 :: t).Nodup
  depot : routed 0 = true
  customers : ∀ n ∈ t, routed n = true
  here : g.nodes[pos]? = some J
  unrouted : routed J = false
  sixth : g.nodes[(pos + (if fwd then 1 else g.nodes.length - 1) * 5) % g.nodes.length]? = some stop
  leaves : t = pre ++ k :: post
  before : ∀ m ∈ pre, g.key k < g.key m
  after : ∀ m ∈ post, g.key k ≤ g.key m
  joins : ∃ prev near far, g.nodes[(pos + (if fwd then g.nodes.length - 1 else 1)) % g.nodes.length]? = some prev ∧
    g.NN_D prev = near ++ j :: far ∧ ∀ m ∈ near, routed m = true
  free : routed j = false

/-- The customer without a route nearest to `j`. -/
def NextNearest (g : GmData) (routed : ℕ → Bool) (j j2 : ℕ) : Prop :=
  ∃ near far, g.NN_D j = near ++ j2 :: far ∧ (∀ m ∈ near, routed m = true ∨ m = j) ∧ routed j2 = false ∧ j2 ≠ j

end Spec

/-- The customers without a route among the next five, those of `out` left out and `k` in the place of `j`. -/
def aheadWithout (g : GmData) (fwd : Bool) (routed : ℕ → Bool) (pos k j : ℕ) (out : ℕ → Bool) : List ℕ :=
  ((nextFive g.nodes fwd routed pos).filter fun n => !out n).map fun n => if n = j then k else n

/-- The decision of the callback with the customers ahead put in. -/
theorem gm_decision {tsp : TspSolver} {g : GmData} {fwd : Bool} {rd : SwRoute} {routed : ℕ → Bool}
    {pos J k j stop : ℕ} {t pre post : List ℕ} {c l : ℚ} (h : GmCall g fwd rd routed pos J k j stop t pre post c l) :
    gm_improvement tsp g fwd rd routed pos =
      let jii := (g.NN_D j).find? fun n => !routed n && n != j
      let D2 := tsp g.D (0 :: (pre ++ post ++ [j]))
      let x := rd.demand - g.d k + g.d j
      let last := if routed stop then 0 else stop
      let D3 := gmPathCost tsp g.D 0 last (nextFive g.nodes fwd routed pos)
      let D4 := gmPathCost tsp g.D 0 last ((nextFive g.nodes fwd routed pos).map fun n => if n = j then k else n)
      if gmWithin g.C g.L D2.2 x = false then .ok (rd, [], [], true)
      else if j ∉ nextFive g.nodes fwd routed pos then .ok (rd, [], [], true)
      else if ¬ (rd.cost + D3 < D2.2 + D4) then
        .ok ({ route := D2.1, cost := D2.2, demand := x, node_set := 0 :: (pre ++ post ++ [j]) }, [j],
              k :: (if j = J then [] else [J]), false)
      else match jii with
        | none => .ok (rd, [], [], true)
        | some j2 =>
          if j2 ∉ nextFive g.nodes fwd routed pos then .ok (rd, [], [], true)
          else
            let D5 := tsp g.D (0 :: (pre ++ post ++ [j, j2]))
            if gmWithin g.C g.L D5.2 (x + g.d j2) = false then .ok (rd, [], [], true)
            else if rd.cost + D3 < D5.2 + gmPathCost tsp g.D 0 last (aheadWithout g fwd routed pos k j fun n => n == j2)
            then .ok (rd, [], [], true)
            else .ok ({ route := D5.1, cost := D5.2, demand := x + g.d j2, node_set := 0 :: (pre ++ post ++ [j, j2]) },
              [j, j2], k :: (if j = J ∨ j2 = J then [] else [J]), false) := by
  obtain ⟨hC, hc, hL, hl, hN, h5, hnodes, hns, hnd, h0, ht, hpos, hJ, hstop, hk, hk1, hk2,
    ⟨prev, near, far, hprev, hnear, hn1⟩, hj⟩ := h
  have hn : 0 < g.nodes.length := by omega
  have hplt : pos < g.nodes.length := (List.getElem?_eq_some_iff.1 hpos).1
  have hN2 : g.N - 2 = g.nodes.length - 1 := by omega
  have hback : sweepStep (!fwd) pos (g.N - 2) = (pos + (if fwd then g.nodes.length - 1 else 1)) % g.nodes.length := by
    rw [hN2, sweepStep_eq _ hplt]
    cases fwd <;> rfl
  have hfind : (g.NN_D prev).find? (fun n => !routed n) = some j := by
    rw [hnear, List.find?_append, List.find?_eq_none.2 (by simpa using hn1)]
    simp [hj]
  have hkt : k ∈ t := by rw [hk]; simp
  have hkr : routed k = true := ht k hkt
  have hjt : j ∉ t := fun hm => by rw [ht j hm] at hj; cases hj
  have hj0 : j ≠ 0 := fun e => by rw [e, h0] at hj; cases hj
  have hk0 : k ≠ 0 := fun e => (List.nodup_cons.1 hnd).1 (e ▸ hkt)
  have hkpre : k ∉ pre := by
    intro hm
    have := hk1 k hm
    exact lt_irrefl _ this
  have her : rd.node_set.erase k = 0 :: (pre ++ post) := by
    rw [hns, List.erase_cons_tail (by simpa using Ne.symm hk0), hk, List.erase_append_right _ hkpre]
    simp
  have hnew : ODS.dictSet (rd.node_set.erase k) j = 0 :: (pre ++ post ++ [j]) := by
    rw [her, dictSet_new]
    · rfl
    · intro hm
      rcases List.mem_cons.1 hm with e | hm
      · exact hj0 e
      · apply hjt
        rw [hk]
        rcases List.mem_append.1 hm with hm | hm <;> simp [hm]
  -- the five customers ahead
  set ns := (List.range 5).filterMap fun i =>
    g.nodes[(pos + (if fwd then 1 else g.nodes.length - 1) * i) % g.nodes.length]? with hnsdef
  have hget : ∀ i, g.nodes[posAt fwd g.nodes.length pos i]? =
      some (g.nodes[posAt fwd g.nodes.length pos i]'(posAt_lt fwd hn pos i)) := fun i => by
    rw [List.getElem?_eq_getElem]
  have hnsmap : ns = (List.range 5).map fun i => g.nodes[posAt fwd g.nodes.length pos i]'(posAt_lt fwd hn pos i) := by
    rw [hnsdef, ← List.filterMap_eq_map]
    apply List.filterMap_congr
    intro i _
    exact hget i
  have hlen : ns.length = 5 := by rw [hnsmap]; simp
  have hprevlt := sweepStep_lt (!fwd) hplt
  have hsh : ∀ i, posAt fwd g.nodes.length (sweepStep (!fwd) pos (g.nodes.length - 1)) (i + 1)
      = posAt fwd g.nodes.length pos i := by
    intro i
    rw [← posAt_shift fwd hprevlt, sweepStep_back fwd hplt]
  have hnsnd : ns.Nodup := by
    rw [hnsmap]
    refine List.Nodup.map_on ?_ List.nodup_range
    intro a ha b hb e
    have e2 := (List.Nodup.getElem_inj_iff hnodes).1 e
    exact posAt_inj fwd (by have := List.mem_range.1 ha; omega) (by have := List.mem_range.1 hb; omega) e2
  have hus : (ns.filter fun n => !routed n).Nodup := hnsnd.filter _
  have hkus : k ∉ ns.filter fun n => !routed n := by
    intro hm
    have := (List.mem_filter.1 hm).2
    simp [hkr] at this
  have hswap : ((ns.filter fun n => !routed n).map (gmSwap k j)).Nodup := by
    refine hus.map_on ?_
    intro a ha b hb e
    unfold gmSwap at e
    by_cases h1 : a = j
    · by_cases h2 : b = j
      · rw [h1, h2]
      · rw [if_pos h1, if_neg h2] at e; exact absurd (e ▸ hb) hkus
    · by_cases h2 : b = j
      · rw [if_neg h1, if_pos h2] at e; exact absurd (e ▸ ha) hkus
      · rwa [if_neg h1, if_neg h2] at e
  set jii := (g.NN_D j).find? fun n => !routed n && n != j with hjii
  have hjj : jii ≠ some j := by
    intro e
    have := List.find?_some (hjii ▸ e)
    simp at this
  have hlook := gmLooks_eq g fwd routed k j jii hjj hN ns
    ⟨[], [], [], false, false, sweepStep (!fwd) pos (g.nodes.length - 1)⟩ hprevlt
    (by
      intro i hi
      simp only
      rw [hsh, hget, hnsmap, List.getElem?_map, List.getElem?_range (by omega)]
      rfl)
    (by simpa using hus) (by simpa using hswap)
    (by
      rw [List.nil_append]
      exact hswap.sublist ((List.filter_sublist).map _))
  rw [hlen] at hlook
  have hCt : truthy g.C = true := by rw [hC]; simpa [truthy] using hc
  have harg : gmArgmin g.key rd.node_set.tail = some k := by
    rw [hns, List.tail_cons, hk]
    exact gmArgmin_split hk1 hk2
  have hstop' : g.nodes[sweepStep fwd (posAt fwd g.nodes.length (sweepStep (!fwd) pos (g.nodes.length - 1)) 5)
      (g.nodes.length - 1)]? = some stop := by
    rw [sweepStep_posAt fwd hn, hsh]
    exact hstop
  have hne : nextFive g.nodes fwd routed pos = ns.filter fun n => !routed n := rfl
  have hmapne : ((nextFive g.nodes fwd routed pos).map fun n => if n = j then k else n) =
      (ns.filter fun n => !routed n).map (gmSwap k j) := rfl
  rw [hmapne, hne]
  unfold gm_improvement
  simp only [hpos, hJ, Bool.false_eq_true, if_false, harg]
  rw [hback, hprev]
  simp only
  rw [hfind]
  simp only
  unfold gmOne
  simp only
  rw [hnew, ← hjii, if_pos hCt]
  by_cases hw : gmWithin g.C g.L (tsp g.D (0 :: (pre ++ post ++ [j]))).2 (rd.demand - g.d k + g.d j) = false
  · rw [if_pos hw, if_pos hw]
  rw [if_neg hw, if_neg hw, ← hback, hN2, hlook]
  simp only [List.nil_append, Bool.false_or]
  by_cases hfive : j ∈ ns.filter fun n => !routed n
  swap
  · rw [if_pos (decide_eq_false hfive), if_pos hfive]
  rw [if_neg (by simpa using hfive), if_neg (not_not.2 hfive), hstop']
  simp only
  generalize gmPathCost tsp g.D 0 (if routed stop = true then 0 else stop) (ns.filter fun n => !routed n) = D3
  generalize gmPathCost tsp g.D 0 (if routed stop = true then 0 else stop)
    ((ns.filter fun n => !routed n).map (gmSwap k j)) = D4
  by_cases hb : ¬ (rd.cost + D3 < (tsp g.D (0 :: (pre ++ post ++ [j]))).2 + D4)
  · rw [if_pos hb, if_pos hb]
    simp only [ne_eq, ite_not]
  rw [if_neg hb, if_neg hb]
  unfold gmTwo
  cases hj2 : jii with
  | none => rfl
  | some j2 =>
    have hany : ((ns.filter fun n => !routed n).any fun n => some n == some j2) = decide (j2 ∈ ns.filter fun n => !routed n) := by
      rw [Bool.eq_iff_iff, List.any_eq_true, decide_eq_true_eq]
      simp
    have hjp := List.find?_some (hjii.symm.trans hj2)
    simp only [Bool.and_eq_true, Bool.not_eq_true', bne_iff_ne, ne_eq] at hjp
    simp only [hany]
    by_cases hfive2 : j2 ∈ ns.filter fun n => !routed n
    swap
    · rw [if_pos (decide_eq_false hfive2), if_pos hfive2]
    rw [if_neg (by simpa using hfive2), if_neg (not_not.2 hfive2)]
    have hnew5 : ODS.dictSet (0 :: (pre ++ post ++ [j])) j2 = 0 :: (pre ++ post ++ [j, j2]) := by
      rw [dictSet_new]
      · simp
      · intro hm
        have : j2 ∈ 0 :: t ∨ j2 = j := by
          rw [hk]
          simp only [List.mem_cons, List.mem_append, List.not_mem_nil, or_false] at hm ⊢
          tauto
        rcases this with hm | e
        · rcases List.mem_cons.1 hm with e | hm
          · rw [e, h0] at hjp; exact absurd hjp.1 (by simp)
          · rw [ht j2 hm] at hjp; exact absurd hjp.1 (by simp)
        · exact hjp.2 e
    rw [hnew5]
    simp only [hCt, if_true]
    split
    · rfl
    · have hf : ((ns.filter fun n => !routed n).filter fun n => some n != some j2).map (gmSwap k j) =
          aheadWithout g fwd routed pos k j fun n => n == j2 := by
        unfold aheadWithout
        rw [hne]
        congr 1
      rw [hf]
      generalize gmPathCost tsp g.D 0 (if routed stop = true then 0 else stop)
        (aheadWithout g fwd routed pos k j fun n => n == j2) = D6
      split
      · rfl
      · simp only [ne_eq, ← not_or, ite_not]

/-- With both limits set the callback makes the exchange of one customer `k` for one customer `j` if it
is within the limits and does not make the costs larger. Here `k` is the customer of the route with the
least key, `j` the customer without a route that is nearest to the one before the current position, and
it is among the next five of the sweep. The costs are those of the route together with a path from the
depot through the next five customers to the one after them (or back, if that one has a route). -/
theorem C39_partial (tsp : TspSolver) (g : GmData) (fwd : Bool) (rd : SwRoute) (routed : ℕ → Bool)
    (pos J k j stop : ℕ) (t pre post : List ℕ) (c l : ℚ) (h : GmCall g fwd rd routed pos J k j stop t pre post c l)
    (hfive : j ∈ nextFive g.nodes fwd routed pos)
    (hcost : (tsp g.D (0 :: (pre ++ post ++ [j]))).2 < l + S_EPS)
    (hdem : rd.demand - g.d k + g.d j ≤ c + C_EPS)
    (hbetter : (tsp g.D (0 :: (pre ++ post ++ [j]))).2 +
        gmPathCost tsp g.D 0 (if routed stop then 0 else stop)
          ((nextFive g.nodes fwd routed pos).map fun n => if n = j then k else n) ≤
      rd.cost + gmPathCost tsp g.D 0 (if routed stop then 0 else stop) (nextFive g.nodes fwd routed pos)) :
    gm_improvement tsp g fwd rd routed pos = .ok
      ({ route := (tsp g.D (0 :: (pre ++ post ++ [j]))).1
         cost := (tsp g.D (0 :: (pre ++ post ++ [j]))).2
         demand := rd.demand - g.d k + g.d j
         node_set := 0 :: (pre ++ post ++ [j]) }, [j], k :: (if j = J then [] else [J]), false) := by
  rw [gm_decision h]
  simp only
  rw [if_neg (by rw [gmWithin_intro h.lim h.lim0 h.cap h.cap0 hcost hdem]; simp), if_neg (not_not.2 hfive),
    if_pos (not_lt.2 hbetter)]

/-- If the exchange of one for one would make the costs larger, the customer without a route nearest to `j`
is added as well, if it is among the next five too, the limits allow it and the costs do not get larger. -/
theorem C39_two_partial (tsp : TspSolver) (g : GmData) (fwd : Bool) (rd : SwRoute) (routed : ℕ → Bool)
    (pos J k j j2 stop : ℕ) (t pre post : List ℕ) (c l : ℚ) (h : GmCall g fwd rd routed pos J k j stop t pre post c l)
    (h2 : NextNearest g routed j j2)
    (hfive : j ∈ nextFive g.nodes fwd routed pos) (hfive2 : j2 ∈ nextFive g.nodes fwd routed pos)
    (hcost : (tsp g.D (0 :: (pre ++ post ++ [j]))).2 < l + S_EPS)
    (hdem : rd.demand - g.d k + g.d j ≤ c + C_EPS)
    (hworse : rd.cost + gmPathCost tsp g.D 0 (if routed stop then 0 else stop) (nextFive g.nodes fwd routed pos) <
      (tsp g.D (0 :: (pre ++ post ++ [j]))).2 +
        gmPathCost tsp g.D 0 (if routed stop then 0 else stop)
          ((nextFive g.nodes fwd routed pos).map fun n => if n = j then k else n))
    (hcost2 : (tsp g.D (0 :: (pre ++ post ++ [j, j2]))).2 < l + S_EPS)
    (hdem2 : rd.demand - g.d k + g.d j + g.d j2 ≤ c + C_EPS)
    (hbetter : (tsp g.D (0 :: (pre ++ post ++ [j, j2]))).2 +
        gmPathCost tsp g.D 0 (if routed stop then 0 else stop)
          (((nextFive g.nodes fwd routed pos).filter fun n => !(n == j2)).map fun n => if n = j then k else n) ≤
      rd.cost + gmPathCost tsp g.D 0 (if routed stop then 0 else stop) (nextFive g.nodes fwd routed pos)) :
    gm_improvement tsp g fwd rd routed pos = .ok
      ({ route := (tsp g.D (0 :: (pre ++ post ++ [j, j2]))).1
         cost := (tsp g.D (0 :: (pre ++ post ++ [j, j2]))).2
         demand := rd.demand - g.d k + g.d j + g.d j2
         node_set := 0 :: (pre ++ post ++ [j, j2]) }, [j, j2], k :: (if j = J ∨ j2 = J then [] else [J]), false) := by
  obtain ⟨near, far, e, hn, hf, hne⟩ := h2
  have hfind : ((g.NN_D j).find? fun n => !routed n && n != j) = some j2 := by
    rw [e, List.find?_append, List.find?_eq_none.2]
    · simp [hf, hne]
    · intro m hm
      rcases hn m hm with e | e <;> simp [e]
  rw [gm_decision h]
  simp only [hfind]
  rw [if_neg (by rw [gmWithin_intro h.lim h.lim0 h.cap h.cap0 hcost hdem]; simp), if_neg (not_not.2 hfive),
    if_neg (not_not.2 hworse), if_neg (not_not.2 hfive2),
    if_neg (by rw [gmWithin_intro h.lim h.lim0 h.cap h.cap0 hcost2 hdem2]; simp), if_neg (by exact not_lt.2 hbetter)]

/-- Every exchange is one that does not make the costs of the route and the path ahead larger: of one customer
for one, or, if that one would, for two. -/
theorem C39_pays (tsp : TspSolver) (g : GmData) (fwd : Bool) (rd : SwRoute) (routed : ℕ → Bool)
    (pos J k j stop : ℕ) (t pre post : List ℕ) (c l : ℚ) (h : GmCall g fwd rd routed pos J k j stop t pre post c l)
    (rd' : SwRoute) (added ignored : List ℕ) (fin : Bool)
    (hres : gm_improvement tsp g fwd rd routed pos = .ok (rd', added, ignored, fin)) :
    (rd' = rd ∧ added = [] ∧ ignored = [] ∧ fin = true) ∨
    (fin = false ∧ added.head? = some j ∧ (∀ j2 ∈ added.tail, NextNearest g routed j j2) ∧
      (∀ n ∈ added, n ∈ nextFive g.nodes fwd routed pos) ∧
      rd'.cost + gmPathCost tsp g.D 0 (if routed stop then 0 else stop)
          (((nextFive g.nodes fwd routed pos).filter fun n => !(added.tail.contains n)).map fun n => if n = j then k else n) ≤
        rd.cost + gmPathCost tsp g.D 0 (if routed stop then 0 else stop) (nextFive g.nodes fwd routed pos)) := by
  rw [gm_decision h] at hres
  simp only at hres
  generalize (if routed stop = true then 0 else stop) = last at hres ⊢
  split at hres
  · cases hres; exact Or.inl ⟨rfl, rfl, rfl, rfl⟩
  split at hres
  · cases hres; exact Or.inl ⟨rfl, rfl, rfl, rfl⟩
  rename_i hfive
  split at hres
  · rename_i hb
    cases hres
    refine Or.inr ⟨rfl, rfl, by simp, by simpa using hfive, ?_⟩
    simpa using hb
  · split at hres
    · cases hres; exact Or.inl ⟨rfl, rfl, rfl, rfl⟩
    rename_i j2 hj2
    split at hres
    · cases hres; exact Or.inl ⟨rfl, rfl, rfl, rfl⟩
    rename_i hfive2
    split at hres
    · cases hres; exact Or.inl ⟨rfl, rfl, rfl, rfl⟩
    split at hres
    · cases hres; exact Or.inl ⟨rfl, rfl, rfl, rfl⟩
    rename_i hb
    cases hres
    refine Or.inr ⟨rfl, rfl, ?_, ?_, ?_⟩
    · intro x hx
      have : x = j2 := by simpa using hx
      subst this
      obtain ⟨hp, near, far, e, hn⟩ := List.find?_eq_some_iff_append.1 hj2
      simp only [Bool.and_eq_true, Bool.not_eq_true', bne_iff_ne, ne_eq] at hp
      refine ⟨near, far, e, fun m hm => ?_, hp.1, hp.2⟩
      have := hn m hm
      simp only [Bool.not_eq_true', Bool.and_eq_false_iff, Bool.not_eq_false', bne_eq_false_iff_eq] at this
      exact this
    · intro n hn
      simp only [List.mem_cons, List.not_mem_nil, or_false] at hn
      rcases hn with rfl | rfl
      · exact not_not.1 hfive
      · exact not_not.1 hfive2
    · have := not_lt.1 hb
      unfold aheadWithout at this
      have e : (fun n => !(([j, j2] : List ℕ).tail.contains n)) = fun n => !(n == j2) := by
        funext n
        simp
        rfl
      rw [e]
      exact this

/-- Seven customers on a line, with the route `0 2 7 0` so far; the callback is called at the customer
`1`. -/
def gmLine (C L : Option ℚ) : GmData :=
  { N := 8
    D := fun a b => |(a : ℚ) - b|
    NN_D := fun n => if n = 7 then [7, 6, 5, 4, 3, 2, 1, 0] else [0, 1, 2, 3, 4, 5, 6, 7]
    d := fun _ => 1
    C := C
    L := L
    nodes := [2, 7, 1, 3, 4, 5, 6]
    key := fun n => n }

/-- The route of the example. -/
def gmLineRoute : SwRoute := ⟨[0, 2, 7, 0], 14, 2, [0, 2, 7]⟩

/-- The claim is false: the exchange of 2 for 6 respects the limit that is set, whichever one that is,
and saves 2, it is made when both limits are set, but not when only one of them is. -/
theorem C39_false :
    let run (C L : Option ℚ) := gm_improvement sweptOrder (gmLine C L) true gmLineRoute (fun n => n ∈ [0, 2, 7]) 2
    run (some 2) (some 100) = .ok (⟨[0, 7, 6, 0], 14, 2, [0, 7, 6]⟩, [6], [2, 1], false) ∧
    run (some 2) none = .ok (gmLineRoute, [], [], true) ∧
    run none (some 100) = .ok (gmLineRoute, [], [], true) := by
  refine ⟨?_, ?_, ?_⟩ <;> decide +kernel

/-- The hypotheses of `C39_partial` hold for the example. -/
example : gm_improvement sweptOrder (gmLine (some 2) (some 100)) true gmLineRoute (fun n => n ∈ [0, 2, 7]) 2 =
    .ok (⟨[0, 7, 6, 0], 14, 2, [0, 7, 6]⟩, [6], [2, 1], false) :=
  (C39_partial sweptOrder (gmLine (some 2) (some 100)) true gmLineRoute (fun n => n ∈ [0, 2, 7]) 2 1 2 6 2
    [2, 7] [] [7] 2 100
    { cap := rfl, cap0 := by norm_num, lim := rfl, lim0 := by norm_num, size := rfl, five := by decide,
      nodes := by decide, set := rfl, nodup := by decide, depot := rfl, customers := by decide, here := rfl,
      unrouted := rfl, sixth := rfl, leaves := rfl, before := by simp, after := by decide +kernel,
      joins := ⟨7, [7], [5, 4, 3, 2, 1, 0], rfl, rfl, by decide⟩, free := rfl }
    (by decide) (by decide +kernel) (by decide +kernel) (by decide +kernel)).trans (by decide +kernel)

/-- The routing algorithm of the sweep is one as `C39_exchange` asks for, whose hypotheses hold for the
example. -/
example : ∃ k, Exchanged (gmLine (some 2) (some 100)).D (fun _ => 1) (some 2) (some 100) (fun n => n ∈ [0, 2, 7]) [2, 7]
    gmLineRoute ⟨[0, 7, 6, 0], 14, 2, [0, 7, 6]⟩ [6] k := by
  rcases C39_exchange sweptOrder (gmLine (some 2) (some 100)) true gmLineRoute (fun n => n ∈ [0, 2, 7]) 2 [2, 7] rfl
    (by decide) rfl (by decide) (sweptOrder_ok _) _ _ _ _ C39_false.1 with h | ⟨_, _, _, k, _, h, _⟩
  · exact absurd h.2.1 (by decide)
  · exact ⟨k, h⟩

/-- Seven customers on a line in another order, with the route `0 7 6 0` so far. -/
def gmLine2 : GmData :=
  { gmLine (some 3) (some 40) with
    NN_D := fun n => if n = 6 then [6, 5, 7, 4, 3, 2, 1, 0] else [5, 4, 6, 3, 7, 2, 1, 0]
    nodes := [7, 6, 5, 2, 3, 4, 1] }

/-- The hypotheses of `C39_two_partial` hold for it: 6 is exchanged for 5 and 4. -/
example : gm_improvement sweptOrder gmLine2 true ⟨[0, 7, 6, 0], 14, 2, [0, 7, 6]⟩ (fun n => n ∈ [0, 7, 6]) 2 =
    .ok (⟨[0, 7, 5, 4, 0], 14, 3, [0, 7, 5, 4]⟩, [5, 4], [6], false) :=
  (C39_two_partial sweptOrder gmLine2 true ⟨[0, 7, 6, 0], 14, 2, [0, 7, 6]⟩ (fun n => n ∈ [0, 7, 6]) 2 5 6 5 4 7
    [7, 6] [7] [] 3 40
    { cap := rfl, cap0 := by norm_num, lim := rfl, lim0 := by norm_num, size := rfl, five := by decide,
      nodes := by decide, set := rfl, nodup := by decide, depot := rfl, customers := by decide, here := rfl,
      unrouted := rfl, sixth := rfl, leaves := rfl, before := by decide +kernel, after := by simp,
      joins := ⟨6, [6], [7, 4, 3, 2, 1, 0], rfl, rfl, by decide⟩, free := rfl }
    ⟨[5], [6, 3, 7, 2, 1, 0], rfl, by decide, rfl, by decide⟩ (by decide) (by decide) (by decide +kernel)
    (by decide +kernel) (by decide +kernel) (by decide +kernel) (by decide +kernel) (by decide +kernel)).trans
    (by decide +kernel)

end Verif
