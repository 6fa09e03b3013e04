import Verif.Lemmas.WrenHollidayRefine

/-! # Lemmas about DISENTANGLE and the main loop of Wren and Holliday -/

namespace Verif

open Spec

variable {N : ℕ} {S : WhSweep} {D : ℕ → ℕ → ℚ} {d : ℕ → ℚ} {C L : Option ℚ}

theorem fits_none {n : ℕ} (h : WhCase N S D d C L) (h1 : 1 ≤ n) (h2 : n < N) : Fits D (some d) C L [0, 0] :=
  fits_new h.depot h.dem0 h.dist h.dem ((fits_iff h.dem0).2 (h.serviceable n h1 h2))

/-- What an accepted attempt gives. -/
structure Untied (D : ℕ → ℕ → ℚ) (d : ℕ → ℚ) (C L : Option ℚ) (rd1 rd2 x y : RouteData) : Prop where
  good1 : GoodRd D (some d) C x
  good2 : GoodRd D (some d) C y
  same : (interior x.route ++ interior y.route).Perm (interior rd1.route ++ interior rd2.route)
  fits : Triangle D → Fits D (some d) C L x.route ∧ Fits D (some d) C L y.route
  gain : y.route = [0, 0] ∨ cost D x.route + cost D y.route + S_EPS < cost D rd1.route + cost D rd2.route

theorem untie_spec (h : WhCase N S D d C L) {rd1 rd2 : RouteData} (g1 : GoodRd D (some d) C rd1)
    (g2 : GoodRd D (some d) C rd2) (hnd : (interior rd1.route ++ interior rd2.route).Nodup)
    (hsub : ∀ n ∈ interior rd1.route ++ interior rd2.route, 1 ≤ n ∧ n < N)
    (h3 : 3 ≤ (interior rd1.route ++ interior rd2.route).length) :
    ∃ r, (∃ F, ∀ fuel, F ≤ fuel → whUntie fuel N S D d C L rd1 rd2 = .ok (some r)) ∧
      ∀ x y, r = some (x, y) → Untied D d C L rd1 rd2 x y := by
  obtain ⟨⟨cs1, e1⟩, b1⟩ := g1
  obtain ⟨⟨cs2, e2⟩, b2⟩ := g2
  have i1 : interior rd1.route = cs1 := by rw [e1, interior_wrap]
  have i2 : interior rd2.route = cs2 := by rw [e2, interior_wrap]
  rw [i1, i2] at hnd hsub h3
  obtain ⟨et, ⟨F1, f1⟩, k1, k2, k3⟩ := rebuild_spec h.nodes h.dem h.dem0 h.serviceable e1 e2 hnd hsub h3
  have hsp : served (et.take 2) ++ ((et.drop 2).flatMap fun rd => rd.route.tail.dropLast) = served et := by
    have : ((et.drop 2).flatMap fun rd => rd.route.tail.dropLast) = served (et.drop 2) := rfl
    rw [this, ← served_append, List.take_append_drop]
  obtain ⟨rds, om, ⟨F2, f2⟩, kk⟩ := refine_spec (L := L) h.symm h.dist (rds := et.take 2)
    (om := (et.drop 2).flatMap fun rd => rd.route.tail.dropLast) (fun rd hrd => (k1 rd (List.mem_of_mem_take hrd)).1)
    (by rw [hsp]; exact k2.nodup_iff.2 hnd)
  have hsame : (served rds ++ om).Perm (cs1 ++ cs2) := by
    have := kk.same
    rw [hsp] at this
    exact this.trans k2
  have hfit : Triangle D → ∀ rd ∈ rds, Fits D (some d) C L rd.route :=
    fun hT => kk.fits hT h.dem fun rd hrd => (k1 rd (List.mem_of_mem_take hrd)).2
  have hlen := kk.length
  have hn : ∃ n, 1 ≤ n ∧ n < N := by
    cases hc : cs1 ++ cs2 with
    | nil => rw [hc] at h3; simp at h3
    | cons a t => exact ⟨a, hsub a (by rw [hc]; simp)⟩
  obtain ⟨n, hn1, hn2⟩ := hn
  have htake : ∃ r, whTake rd1 rd2 rds om = .ok r ∧ ∀ x y, r = some (x, y) → Untied D d C L rd1 rd2 x y := by
    match rds, kk, hsame, hfit, hlen with
    | [], _, _, _, hlen =>
      exfalso
      have := List.length_pos_iff.2 k3
      rw [List.length_take] at hlen
      simp at hlen
      omega
    | [x], kk, hsame, hfit, _ =>
      refine ⟨_, rfl, fun x' y' he => ?_⟩
      by_cases ho : om = []
      · rw [if_pos ho] at he
        injection he with he
        injection he with hx hy
        subst hx hy
        refine ⟨kk.good _ (by simp), good_new h.depot h.dem0, ?_, fun hT => ⟨hfit hT _ (by simp), fits_none h hn1 hn2⟩,
          .inl rfl⟩
        have : served [x] = interior x.route := by simp [served]
        rw [ho, List.append_nil, this] at hsame
        have : interior (⟨[0, 0], 0, some 0⟩ : RouteData).route = [] := rfl
        rw [this, List.append_nil, i1, i2]
        exact hsame
      · rw [if_neg ho] at he
        simp at he
    | x :: y :: t, kk, hsame, hfit, hlen =>
      have ht : t = [] := by
        rw [List.length_take] at hlen
        simp only [List.length_cons] at hlen
        exact List.length_eq_zero_iff.1 (by omega)
      subst ht
      refine ⟨_, rfl, fun x' y' he => ?_⟩
      by_cases ho : om = [] ∧ x.cost + y.cost + S_EPS < rd1.cost + rd2.cost
      · rw [if_pos ho] at he
        injection he with he
        injection he with hx hy
        subst hx hy
        have gx := kk.good x (by simp)
        have gy := kk.good y (by simp)
        refine ⟨gx, gy, ?_, fun hT => ⟨hfit hT _ (by simp), hfit hT _ (by simp)⟩, .inr ?_⟩
        · have : served [x, y] = interior x.route ++ interior y.route := by simp [served]
          rw [ho.1, List.append_nil, this] at hsame
          rw [i1, i2]
          exact hsame
        · rw [← gx.2.1, ← gy.2.1, ← b1.1, ← b2.1]
          exact ho.2
      · rw [if_neg ho] at he
        simp at he
  obtain ⟨r, er, hr⟩ := htake
  refine ⟨r, ⟨F1 + F2, fun fuel hf => ?_⟩, hr⟩
  rw [whUntie, f1 fuel (by omega)]
  simp only
  rw [f2 fuel fuel (by omega) (by omega)]
  simp only
  rw [er]

/-- What DISENTANGLE does: the number of the routes in use does not grow, and if it stays the same, nothing
has changed or the total cost is lower. -/
structure DisKeeps (D : ℕ → ℕ → ℚ) (d : ℕ → ℚ) (C L : Option ℚ) (rds rds' : List RouteData) : Prop
    extends WhKeeps D d C L rds rds' where
  length : rds'.length = rds.length
  fewer : (remove_empty rds').length ≤ (remove_empty rds).length
  gain : (remove_empty rds').length = (remove_empty rds).length → rds' = rds ∨ tot D rds' + S_EPS < tot D rds

theorem disKeeps_refl {rds : List RouteData} (h : ∀ rd ∈ rds, GoodRd D (some d) C rd) : DisKeeps D d C L rds rds :=
  ⟨whKeeps_refl h, rfl, le_rfl, fun _ => .inl rfl⟩

theorem disKeeps_trans {a b c : List RouteData} (h : DisKeeps D d C L a b) (h' : DisKeeps D d C L b c) :
    DisKeeps D d C L a c := by
  refine ⟨whKeeps_trans h.toWhKeeps h'.toWhKeeps, h'.length.trans h.length, h'.fewer.trans h.fewer, fun e => ?_⟩
  have f1 := h.fewer
  have f2 := h'.fewer
  rcases h.gain (by omega) with rfl | g
  · exact h'.gain (by omega)
  · rcases h'.gain (by omega) with rfl | g'
    · exact .inr g
    · have := S_EPS_pos
      exact .inr (by linarith)

theorem nonempty_set {rds : List RouteData} {k : ℕ} {rd : RouteData} (h : rds[k]? = some rd) (rd' : RouteData) :
    (remove_empty (rds.set k rd')).length + (if rd.is_empty then 0 else 1) =
      (remove_empty rds).length + (if rd'.is_empty then 0 else 1) := by
  induction rds generalizing k with
  | nil => simp at h
  | cons x rds ih =>
    cases k with
    | zero =>
      simp only [List.getElem?_cons_zero, Option.some.injEq] at h
      subst h
      simp only [List.set_cons_zero, remove_empty, List.filter_cons]
      cases x.is_empty <;> cases rd'.is_empty <;> simp
    | succ k =>
      have := ih (k := k) (by simpa using h)
      simp only [List.set_cons_succ, remove_empty, List.filter_cons] at this ⊢
      cases x.is_empty <;> simp at this ⊢ <;> omega

theorem disentangleAt_spec (h : WhCase N S D d C L) {rds : List RouteData} (hg : ∀ rd ∈ rds, GoodRd D (some d) C rd)
    (hs : (served rds).Perm (List.range' 1 (N - 1))) {i j : ℕ} (hi : i < rds.length) (hj : j < rds.length)
    (hij : j ≠ i) :
    ∃ rds', (∃ F, ∀ fuel, F ≤ fuel → whDisentangleAt fuel N S D d C L i j rds (rds.map (whRange S)) =
      .ok (some (rds', rds'.map (whRange S)))) ∧ DisKeeps D d C L rds rds' := by
  have hgi : rds[i]? = some rds[i] := List.getElem?_eq_getElem hi
  have hgj : rds[j]? = some rds[j] := List.getElem?_eq_getElem hj
  have gi := hg _ (List.getElem_mem hi)
  have gj := hg _ (List.getElem_mem hj)
  have ri : idx (rds.map (whRange S)) i = .ok (whRange S rds[i]) := by rw [idx_of_lt (by simpa using hi)]; simp
  have rj : idx (rds.map (whRange S)) j = .ok (whRange S rds[j]) := by rw [idx_of_lt (by simpa using hj)]; simp
  have stay : ∀ (f : ℕ → Py (Option (List RouteData × List (Option PhiRange)))),
      (∃ F, ∀ fuel, F ≤ fuel → f fuel = .ok (some (rds, rds.map (whRange S)))) →
      ∃ rds', (∃ F, ∀ fuel, F ≤ fuel → f fuel = .ok (some (rds', rds'.map (whRange S)))) ∧ DisKeeps D d C L rds rds' :=
    fun f hf => ⟨rds, hf, disKeeps_refl hg⟩
  by_cases ht : whTangled (whRange S rds[i]) (whRange S rds[j]) = true
  · obtain ⟨cs1, e1⟩ := gi.1
    obtain ⟨cs2, e2⟩ := gj.1
    have ht' := ht
    rw [whRange_wrap S e1, whRange_wrap S e2] at ht'
    obtain ⟨hc1, hc2, h3⟩ := tangled_three h.angles ht'
    have i1 : interior rds[i].route = cs1 := by rw [e1, interior_wrap]
    have i2 : interior rds[j].route = cs2 := by rw [e2, interior_wrap]
    -- the two routes and the rest
    have p1 := served_set hgi (⟨[0, 0], 0, some 0⟩ : RouteData)
    have p2 := served_set (rds := rds.set i ⟨[0, 0], 0, some 0⟩) (k := j) (rd := rds[j])
      (by rw [List.getElem?_set_ne (Ne.symm hij)]; exact hgj) (⟨[0, 0], 0, some 0⟩ : RouteData)
    have hz : interior (⟨[0, 0], 0, some 0⟩ : RouteData).route = [] := rfl
    have hrest : (cs1 ++ cs2 ++ served ((rds.set i ⟨[0, 0], 0, some 0⟩).set j ⟨[0, 0], 0, some 0⟩)).Perm (served rds) := by
      rw [List.perm_iff_count] at p1 p2 ⊢
      intro x
      have q1 := p1 x
      have q2 := p2 x
      rw [hz, i1] at q1
      rw [hz, i2] at q2
      simp only [List.count_append, List.count_nil] at q1 q2 ⊢
      omega
    have hnd : (served rds).Nodup := hs.nodup_iff.2 ((List.pairwise_lt_range' 1).imp fun h => ne_of_lt h)
    obtain ⟨r, ⟨F, e⟩, hr⟩ := untie_spec h gi gj (by
        rw [i1, i2]
        exact (List.nodup_append.1 (hrest.nodup_iff.2 hnd)).1) (by
        intro n hn
        rw [i1, i2] at hn
        have := hs.mem_iff.1 (hrest.mem_iff.1 (List.mem_append_left _ hn))
        rw [List.mem_range'_1] at this
        omega) (by rw [i1, i2]; exact h3)
    cases r with
    | none =>
      refine stay _ ⟨F, fun fuel hf => ?_⟩
      rw [whDisentangleAt, idx_of_lt hi, idx_of_lt hj]
      simp only
      rw [ri, rj]
      simp only
      rw [if_pos ht, e fuel hf]
    | some p =>
      obtain ⟨x, y⟩ := p
      have hu := hr x y rfl
      obtain ⟨cx, ex⟩ := hu.good1.1
      obtain ⟨cy, ey⟩ := hu.good2.1
      have ix : x.route.tail.dropLast = cx := by rw [ex]; exact interior_wrap cx
      have iy : y.route.tail.dropLast = cy := by rw [ey]; exact interior_wrap cy
      have q1 := served_set hgi x
      have q2 := served_set (rds := rds.set i x) (k := j) (rd := rds[j])
        (by rw [List.getElem?_set_ne (Ne.symm hij)]; exact hgj) y
      have hj' : (rds.set i x)[j]? = some rds[j] := by rw [List.getElem?_set_ne (Ne.symm hij)]; exact hgj
      have ne1 : ¬ rds[i].is_empty = true := fun he => hc1 ((is_empty_wrap e1).1 he)
      have ne2 : ¬ rds[j].is_empty = true := fun he => hc2 ((is_empty_wrap e2).1 he)
      have hmem : ∀ rd ∈ (rds.set i x).set j y, rd = x ∨ rd = y ∨ rd ∈ rds := by
        intro rd hrd
        rcases List.mem_or_eq_of_mem_set hrd with hrd | rfl
        · rcases List.mem_or_eq_of_mem_set hrd with hrd | rfl
          · exact .inr (.inr hrd)
          · exact .inl rfl
        · exact .inr (.inl rfl)
      refine ⟨(rds.set i x).set j y, ⟨F, fun fuel hf => ?_⟩, ⟨?_, ?_, ?_⟩, by simp, ?_, ?_⟩
      · rw [whDisentangleAt, idx_of_lt hi, idx_of_lt hj]
        simp only
        rw [ri, rj]
        simp only
        rw [if_pos ht, e fuel hf]
        simp only
        rw [ix, iy, ← whRange_wrap S ex, ← whRange_wrap S ey, List.map_set, List.map_set]
      · intro rd hrd
        rcases hmem rd hrd with rfl | rfl | hrd
        · exact hu.good1
        · exact hu.good2
        · exact hg rd hrd
      · have hus := hu.same
        rw [List.perm_iff_count] at q1 q2 hus ⊢
        intro z
        have a1 := q1 z
        have a2 := q2 z
        have a3 := hus z
        simp only [List.count_append] at a1 a2 a3
        omega
      · intro hT _ hf rd hrd
        rcases hmem rd hrd with rfl | rfl | hrd
        · exact (hu.fits hT).1
        · exact (hu.fits hT).2
        · exact hf rd hrd
      · have n1 := nonempty_set hgi x
        have n2 := nonempty_set (rds := rds.set i x) hj' y
        rw [if_neg ne1] at n1
        rw [if_neg ne2] at n2
        split at n1 <;> split at n2 <;> omega
      · intro he
        rcases hu.gain with hy | hlt
        · exfalso
          have n1 := nonempty_set hgi x
          have n2 := nonempty_set (rds := rds.set i x) hj' y
          rw [if_neg ne1] at n1
          rw [if_neg ne2, if_pos (by simp [RouteData.is_empty, hy])] at n2
          split at n1 <;> omega
        · refine .inr ?_
          rw [tot_set hj', tot_set hgi]
          linarith
  · refine stay _ ⟨0, fun fuel hf => ?_⟩
    rw [whDisentangleAt, idx_of_lt hi, idx_of_lt hj]
    simp only
    rw [ri, rj]
    simp only
    rw [if_neg ht]

theorem disentangleLoop_spec (h : WhCase N S D d C L) {n : ℕ} (ps : List (ℕ × ℕ)) (hps : ∀ p ∈ ps, p ∈ ordPairs n) :
    ∀ {rds : List RouteData}, rds.length = n → (∀ rd ∈ rds, GoodRd D (some d) C rd) →
    (served rds).Perm (List.range' 1 (N - 1)) →
    ∃ rds', (∃ F, ∀ fuel, F ≤ fuel → whDisentangleLoop fuel N S D d C L ps rds (rds.map (whRange S)) =
      .ok (some rds')) ∧ DisKeeps D d C L rds rds' := by
  induction ps with
  | nil =>
    intro rds _ hg _
    exact ⟨rds, ⟨0, fun _ _ => rfl⟩, disKeeps_refl hg⟩
  | cons p ps ih =>
    intro rds hn hg hs
    obtain ⟨i, j⟩ := p
    obtain ⟨hi, hj, hij⟩ := mem_ordPairs.1 (hps (i, j) (by simp))
    simp only at hi hj hij
    obtain ⟨rds1, ⟨F1, e1⟩, k1⟩ := disentangleAt_spec h hg hs (hn ▸ hi) (hn ▸ hj) hij
    obtain ⟨rds2, ⟨F2, e2⟩, k2⟩ := ih (fun p hp => hps p (List.mem_cons_of_mem _ hp)) (k1.length.trans hn) k1.good
      (k1.same.trans hs)
    refine ⟨rds2, ⟨F1 + F2, fun fuel hf => ?_⟩, disKeeps_trans k1 k2⟩
    rw [whDisentangleLoop, e1 fuel (by omega)]
    exact e2 fuel (by omega)

theorem disentangle_spec (h : WhCase N S D d C L) {rds : List RouteData} (hg : ∀ rd ∈ rds, GoodRd D (some d) C rd)
    (hs : (served rds).Perm (List.range' 1 (N - 1))) :
    ∃ rds', (∃ F, ∀ fuel, F ≤ fuel → disentangle_heuristic fuel N S D d C L rds = .ok (some (rds', false))) ∧
      DisKeeps D d C L rds rds' := by
  obtain ⟨rds', ⟨F, e⟩, k⟩ := disentangleLoop_spec h (ordPairs rds.length) (fun _ h => h) rfl hg hs
  exact ⟨rds', ⟨F, fun fuel hf => by rw [disentangle_heuristic, e fuel hf]⟩, k⟩

end Verif
