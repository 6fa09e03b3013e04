import Verif.Spec.WrenHollidayInit
import Verif.Props.WrenHolliday
import Verif.Props.InterRoute
import Verif.Props.IntraRoute
import Verif.Lemmas.Lr3opt
import Verif.Lemmas.StarLoop
import Verif.Lemmas.Sweep
import Mathlib.Algebra.Order.Archimedean.Basic

/-! # Lemmas for the improvement procedures of Wren and Holliday -/

namespace Verif
open Spec

theorem tot_cons (D : ℕ → ℕ → ℚ) (rd : RouteData) (rds : List RouteData) :
    tot D (rd :: rds) = cost D rd.route + tot D rds := by simp [tot, total]

theorem tot_nil (D : ℕ → ℕ → ℚ) : tot D [] = 0 := rfl

theorem tot_append (D : ℕ → ℕ → ℚ) (a b : List RouteData) : tot D (a ++ b) = tot D a + tot D b := by
  simp [tot, total]

theorem tot_set {D : ℕ → ℕ → ℚ} {rds : List RouteData} {k : ℕ} {rd : RouteData} (h : rds[k]? = some rd)
    (rd' : RouteData) : tot D (rds.set k rd') = tot D rds - cost D rd.route + cost D rd'.route := by
  induction rds generalizing k with
  | nil => simp at h
  | cons x rds ih =>
    cases k with
    | zero =>
      simp only [List.getElem?_cons_zero, Option.some.injEq] at h
      subst h
      rw [List.set_cons_zero, tot_cons, tot_cons]; ring
    | succ k =>
      simp only [List.getElem?_cons_succ] at h
      rw [List.set_cons_succ, tot_cons, tot_cons, ih h]; ring

theorem tot_nonneg {D : ℕ → ℕ → ℚ} (hD : ∀ i j, 0 ≤ D i j) (rds : List RouteData) : 0 ≤ tot D rds := by
  induction rds with
  | nil => simp [tot_nil]
  | cons rd rds ih => rw [tot_cons]; have := cost_nonneg hD rd.route; linarith

theorem served_cons (rd : RouteData) (rds : List RouteData) :
    served (rd :: rds) = interior rd.route ++ served rds := rfl

theorem served_append (a b : List RouteData) : served (a ++ b) = served a ++ served b := by
  simp [served]

/-- Routes from depot to depot with the same nodes serve the same customers. -/
theorem interior_perm {rs rs' : List (List ℕ)} (h : ∀ r ∈ rs, ∃ cs, r = wrap cs)
    (h' : ∀ r ∈ rs', ∃ cs, r = wrap cs) (hl : rs'.length = rs.length) (hp : rs'.flatten.Perm rs.flatten) :
    (rs'.flatMap interior).Perm (rs.flatMap interior) := by
  have key : ∀ (x : ℕ) (rs : List (List ℕ)), (∀ r ∈ rs, ∃ cs, r = wrap cs) →
      rs.flatten.count x = (rs.flatMap interior).count x + rs.length * (2 * [0].count x) := by
    intro x rs
    induction rs with
    | nil => simp
    | cons r rs ih =>
      intro h
      obtain ⟨cs, rfl⟩ := h r (by simp)
      have := ih (fun r hr => h r (List.mem_cons_of_mem _ hr))
      rw [List.flatten_cons, List.flatMap_cons, List.count_append, List.count_append, this, interior_wrap]
      simp only [wrap, List.count_cons, List.count_append, List.length_cons, List.count_nil]
      ring
  rw [List.perm_iff_count] at hp ⊢
  intro x
  have := hp x
  rw [key x rs h, key x rs' h', hl] at this
  omega

theorem idx_of_lt {α : Type} {l : List α} {i : ℕ} (h : i < l.length) : idx l i = .ok l[i] := by simp [idx, h]

theorem idx_some {α : Type} {l : List α} {i : ℕ} {x : α} (h : l[i]? = some x) : idx l i = .ok x := by simp [idx, h]

section

variable {D : ℕ → ℕ → ℚ} {d : ℕ → ℚ} {C L : Option ℚ}

theorem whKeeps_refl {rds : List RouteData} (h : ∀ rd ∈ rds, GoodRd D (some d) C rd) : WhKeeps D d C L rds rds :=
  ⟨h, .refl _, fun _ _ h => h⟩

theorem whKeeps_trans {a b c : List RouteData} (h : WhKeeps D d C L a b) (h' : WhKeeps D d C L b c) :
    WhKeeps D d C L a c :=
  ⟨h'.good, h'.same.trans h.same, fun hD hd hf => h'.fits hD hd (h.fits hD hd hf)⟩

theorem whProg_refl {rds : List RouteData} (h : ∀ rd ∈ rds, GoodRd D (some d) C rd) :
    WhProg D d C L rds rds false :=
  ⟨whKeeps_refl h, rfl, by simp, fun _ => rfl⟩

theorem whProg_le {rds rds' : List RouteData} {b : Bool} (h : WhProg D d C L rds rds' b) :
    tot D rds' ≤ tot D rds := by
  cases b with
  | false => rw [h.none rfl]
  | true => have := h.gain rfl; have := S_EPS_pos; linarith

theorem whProg_trans {a b c : List RouteData} {x y : Bool} (h : WhProg D d C L a b x)
    (h' : WhProg D d C L b c y) : WhProg D d C L a c (x || y) := by
  refine ⟨whKeeps_trans h.toWhKeeps h'.toWhKeeps, h'.length.trans h.length, fun e => ?_, fun e => ?_⟩
  · have h1 := whProg_le h
    have h2 := whProg_le h'
    cases x with
    | true => have := h.gain rfl; linarith
    | false =>
      have := h'.gain (by simpa using e)
      linarith
  · cases x with
    | true => simp at e
    | false => rw [h'.none (by simpa using e), h.none rfl]

/-- A change of one route that keeps its customers and lowers its cost. -/
theorem whProg_one {rds : List RouteData} (h : ∀ rd ∈ rds, GoodRd D (some d) C rd) {k : ℕ} {rd rd' : RouteData}
    (hk : rds[k]? = some rd) (hg : GoodRd D (some d) C rd') (hp : (interior rd'.route).Perm (interior rd.route))
    (hr : rd'.route.Perm rd.route) (hc : cost D rd'.route + S_EPS < cost D rd.route) :
    WhProg D d C L rds (rds.set k rd') true := by
  refine ⟨⟨?_, ?_, ?_⟩, by simp, fun _ => ?_, by simp⟩
  · intro x hx
    rcases List.mem_or_eq_of_mem_set hx with hx | rfl
    · exact h x hx
    · exact hg
  · have := served_set hk rd'
    rw [List.perm_iff_count] at this hp ⊢
    intro x
    have q1 := this x
    have q2 := hp x
    simp only [List.count_append] at q1
    omega
  · intro _ _ hf x hx
    rcases List.mem_or_eq_of_mem_set hx with hx | rfl
    · exact hf x hx
    · have := hf rd (List.mem_of_getElem? hk)
      refine ⟨fun f he => ?_, ?_⟩
      · have := this.1 f he
        rwa [demand_perm f hr]
      · refine within_mono this.2 ?_
        have := S_EPS_pos
        linarith
  · rw [tot_set hk]; linarith

/-- A record whose route has new order of the same nodes. -/
theorem good_reorder {rd : RouteData} (h : GoodRd D (some d) C rd) {r : List ℕ} {x : ℚ} (hp : r.Perm rd.route)
    (h0 : r.head? = rd.route.head?) (h1 : r.getLast? = rd.route.getLast?) (hc : cost D r = cost D rd.route + x) :
    GoodRd D (some d) C { rd with route := r, cost := rd.cost + x } ∧
      (interior r).Perm (interior rd.route) := by
  obtain ⟨⟨cs, e⟩, b1, b2⟩ := h
  have hde : DepotEnds r := by
    have := depotEnds_wrap cs
    rw [← e] at this
    exact ⟨h0.trans this.1, h1.trans this.2⟩
  obtain ⟨cs', e'⟩ := wrap_of_depotEnds hde (by rw [hp.length_eq, e]; simp [wrap])
  refine ⟨⟨⟨cs', e'⟩, ?_, fun hC => ?_⟩, ?_⟩
  · show rd.cost + x = cost D r
    rw [b1, hc]
  · obtain ⟨f, hf, hq⟩ := b2 hC
    exact ⟨f, hf, by rw [demand_perm f hp]; exact hq⟩
  · rw [e', e, interior_wrap, interior_wrap]
    rw [e', e, List.perm_iff_count] at hp
    rw [List.perm_iff_count]
    intro y
    have := hp y
    simp only [wrap, List.count_cons, List.count_append] at this
    omega

/-! ## INSPECT -/

theorem twoOptimal_short {r : List ℕ} (h : r.length ≤ 2) : TwoOptimal D r := by
  rintro r' ⟨A, B, E, hA, hB, hE, rfl, -⟩
  have := List.length_pos_iff.2 hA
  have := List.length_pos_iff.2 hB
  have := List.length_pos_iff.2 hE
  simp only [List.length_append] at h
  omega

theorem inspectRoute_spec (hS : Symm D) (hD : ∀ i j, 0 ≤ D i j) (k : ℕ) :
    ∀ {rd : RouteData}, GoodRd D (some d) C rd → cost D rd.route ≤ k * S_EPS →
    ∃ rd' b, (∀ imp fuel, k + 1 ≤ fuel → whInspectRoute D fuel rd imp = .ok (some (rd', imp || b))) ∧
      GoodRd D (some d) C rd' ∧ rd'.route.Perm rd.route ∧ (interior rd'.route).Perm (interior rd.route) ∧
      TwoOptimal D rd'.route ∧
      (b = true → cost D rd'.route + S_EPS < cost D rd.route) ∧ (b = false → rd' = rd) := by
  induction k with
  | zero =>
    intro rd hg hc
    obtain ⟨r, e, hr⟩ := C12_two_opt hS rd.route .FIRST_ACCEPT none
    cases r with
    | some p =>
      obtain ⟨r', x⟩ := p
      obtain ⟨-, h2, h3, -⟩ := hr
      have := cost_nonneg hD r'
      have := S_EPS_pos
      simp only [Option.getD_none] at h3
      rw [Nat.cast_zero, zero_mul] at hc
      linarith
    | none =>
      refine ⟨rd, false, ?_, hg, .refl _, .refl _, ?_, by simp, fun _ => rfl⟩
      · intro imp fuel hf
        obtain ⟨fuel, rfl⟩ : ∃ f, fuel = f + 1 := ⟨fuel - 1, by omega⟩
        rw [whInspectRoute, e]
        simp
      · intro r' hn hlt
        exact hr r' hn (by simp only [Option.getD_none]; linarith)
  | succ k ih =>
    intro rd hg hc
    obtain ⟨r, e, hr⟩ := C12_two_opt hS rd.route .FIRST_ACCEPT none
    cases r with
    | some p =>
      obtain ⟨r', x⟩ := p
      obtain ⟨h1, h2, h3⟩ := C12_same_nodes hS e
      obtain ⟨-, h4, h5, -⟩ := hr
      simp only [Option.getD_none] at h5
      obtain ⟨g1, g2⟩ := good_reorder hg h1 h2 h3 h4
      obtain ⟨rd', b, i1, i2, i3, i4, i5, i6, i7⟩ := ih g1 (by
        show cost D r' ≤ _
        rw [h4]
        push_cast at hc
        linarith)
      refine ⟨rd', true, ?_, i2, i3.trans h1, i4.trans g2, i5, fun _ => ?_, by simp⟩
      · intro imp fuel hf
        obtain ⟨fuel, rfl⟩ : ∃ f, fuel = f + 1 := ⟨fuel - 1, by omega⟩
        rw [whInspectRoute, e]
        simp only
        rw [i1 true fuel (by omega)]
        simp
      · have : cost D rd'.route ≤ cost D r' := by
          cases b with
          | false => rw [i7 rfl]
          | true => have := i6 rfl; have := S_EPS_pos; linarith
        rw [h4] at this
        linarith
    | none =>
      refine ⟨rd, false, ?_, hg, .refl _, .refl _, ?_, by simp, fun _ => rfl⟩
      · intro imp fuel hf
        obtain ⟨fuel, rfl⟩ : ∃ f, fuel = f + 1 := ⟨fuel - 1, by omega⟩
        rw [whInspectRoute, e]
        simp
      · intro r' hn hlt
        exact hr r' hn (by simp only [Option.getD_none]; linarith)

theorem exists_bound (x : ℚ) : ∃ k : ℕ, x ≤ k * S_EPS := by
  obtain ⟨k, hk⟩ := exists_nat_gt (x / S_EPS)
  exact ⟨k, by rw [div_lt_iff₀ S_EPS_pos] at hk; exact hk.le⟩

theorem empty_route {rd : RouteData} (h : rd.is_empty = true) : rd.route.length ≤ 2 := by
  simp [RouteData.is_empty] at h
  rcases h with h | h <;> simp [h]

theorem inspectOne_spec (hS : Symm D) (hD : ∀ i j, 0 ≤ D i j) {rd : RouteData} (hg : GoodRd D (some d) C rd) :
    ∃ rd' b, (∃ F, ∀ fuel, F ≤ fuel → whInspectOne fuel D rd = .ok (some (rd', b))) ∧
      GoodRd D (some d) C rd' ∧ rd'.route.Perm rd.route ∧ (interior rd'.route).Perm (interior rd.route) ∧
      TwoOptimal D rd'.route ∧
      (b = true → cost D rd'.route + S_EPS < cost D rd.route) ∧ (b = false → rd' = rd) := by
  by_cases he : rd.is_empty = true
  · refine ⟨rd, false, ⟨0, fun fuel _ => by rw [whInspectOne, if_pos he]⟩, hg, .refl _, .refl _,
      twoOptimal_short (empty_route he), by simp, fun _ => rfl⟩
  · obtain ⟨k, hk⟩ := exists_bound (cost D rd.route)
    obtain ⟨rd', b, h1, h2⟩ := inspectRoute_spec (C := C) (d := d) hS hD k hg hk
    exact ⟨rd', b, ⟨k + 1, fun fuel hf => by rw [whInspectOne, if_neg he, h1 false fuel hf]; simp⟩, h2⟩

theorem whProg_cons {rd rd' : RouteData} {rds rds' : List RouteData} {b : Bool} (hg : GoodRd D (some d) C rd')
    (hr : rd'.route.Perm rd.route) (hp : (interior rd'.route).Perm (interior rd.route)) {x : Bool}
    (h1 : x = true → cost D rd'.route + S_EPS < cost D rd.route) (h2 : x = false → rd' = rd)
    (h : WhProg D d C L rds rds' b) : WhProg D d C L (rd :: rds) (rd' :: rds') (x || b) := by
  have hle : cost D rd'.route ≤ cost D rd.route := by
    cases x with
    | false => rw [h2 rfl]
    | true => have := h1 rfl; have := S_EPS_pos; linarith
  have hle' := whProg_le h
  refine ⟨⟨?_, ?_, ?_⟩, by simp [h.length], fun e => ?_, fun e => ?_⟩
  · intro y hy
    rcases List.mem_cons.1 hy with rfl | hy
    · exact hg
    · exact h.good y hy
  · rw [served_cons, served_cons]
    exact hp.append h.same
  · intro hD hd hf y hy
    rcases List.mem_cons.1 hy with rfl | hy
    · have := hf rd (by simp)
      refine ⟨fun f he => ?_, fun c hc h0 => hle.trans (this.2 c hc h0)⟩
      have := this.1 f he
      rwa [demand_perm f hr]
    · exact h.fits hD hd (fun z hz => hf z (List.mem_cons_of_mem _ hz)) y hy
  · rw [tot_cons, tot_cons]
    cases x with
    | true => have := h1 rfl; linarith
    | false => have := h.gain (by simpa using e); linarith
  · cases x with
    | true => simp at e
    | false => rw [h2 rfl, h.none (by simpa using e)]

theorem inspect_spec (hS : Symm D) (hD : ∀ i j, 0 ≤ D i j) {rds : List RouteData}
    (h : ∀ rd ∈ rds, GoodRd D (some d) C rd) :
    ∃ rds' b, (∃ F, ∀ fuel, F ≤ fuel → inspect_heuristic fuel D rds = .ok (some (rds', b))) ∧
      WhProg D d C L rds rds' b ∧ ∀ rd ∈ rds', TwoOptimal D rd.route := by
  induction rds with
  | nil => exact ⟨[], false, ⟨0, fun _ _ => rfl⟩, whProg_refl h, by simp⟩
  | cons rd rds ih =>
    obtain ⟨rd', x, ⟨F1, e1⟩, g1, g2, g3, g4, g5, g6⟩ := inspectOne_spec (C := C) (d := d) hS hD (h rd (by simp))
    obtain ⟨rds', b, ⟨F2, e2⟩, p1, p2⟩ := ih (fun y hy => h y (List.mem_cons_of_mem _ hy))
    refine ⟨rd' :: rds', x || b, ⟨F1 + F2, fun fuel hf => ?_⟩, whProg_cons g1 g2 g3 g5 g6 p1, ?_⟩
    · rw [inspect_heuristic, e1 fuel (by omega)]
      simp only
      rw [e2 fuel (by omega)]
    · intro y hy
      rcases List.mem_cons.1 hy with rfl | hy
      · exact g4
      · exact p2 y hy

/-! ## SINGLE -/

theorem moveTo_spec {rds : List RouteData} (h : ∀ rd ∈ rds, GoodRd D (some d) C rd) {i j : ℕ}
    (hi : i < rds.length) (hj : j < rds.length) :
    ∃ rds' b, whMoveTo D d C L i j rds = .ok (rds', b) ∧ WhProg D d C L rds rds' b ∧
      (b = false → i ≠ j → NoMove D d C L rds[i].route rds[j].route) := by
  rw [whMoveTo]
  by_cases hij : i = j
  · rw [if_pos hij]
    exact ⟨rds, false, rfl, whProg_refl h, fun _ hne => absurd hij hne⟩
  rw [if_neg hij, idx_of_lt hi, idx_of_lt hj]
  simp only
  have gi := h _ (List.getElem_mem hi)
  have gj := h _ (List.getElem_mem hj)
  have hgi : rds[i]? = some rds[i] := List.getElem?_eq_getElem hi
  have hgj : rds[j]? = some rds[j] := List.getElem?_eq_getElem hj
  generalize rds[i] = rd1 at gi hgi ⊢
  generalize rds[j] = rd2 at gj hgj ⊢
  obtain ⟨r, e, hr⟩ := C16_one_point (L := L) gi.2 gj.2 .FIRST_ACCEPT none
  rw [e]
  cases r with
  | none =>
    refine ⟨rds, false, rfl, whProg_refl h, fun _ _ r1' r2' hn hf hlt => ?_⟩
    refine hr [r1', r2'] (by simpa using hn) (by intro r hm; simp only [List.tail_cons, List.mem_singleton] at hm; subst hm; exact hf) ?_
    simp only [Option.getD_none, total, List.map_cons, List.map_nil, List.sum_cons, List.sum_nil]
    linarith
  | some p =>
    obtain ⟨l, x⟩ := p
    have hcons := C16_conserves gi.2 gj.2 e
    obtain ⟨hn, -, hb, ht, hx, -⟩ := hr
    simp only [Option.getD_none] at hx
    obtain ⟨a, b, rfl⟩ : ∃ a b, l = [a, b] := by
      have := hcons.2.1
      simp only [List.length_map, List.length_cons, List.length_nil] at this
      exact List.length_eq_two.1 this
    simp only
    have hlen : 2 ≤ a.route.length ∧ 2 ≤ b.route.length := by
      obtain ⟨A, B, E, F, n, hA, hB, hE, hF, -, hr'⟩ := hn
      simp only [List.map_cons, List.map_nil, List.cons.injEq, and_true] at hr'
      have := List.length_pos_iff.2 hA
      have := List.length_pos_iff.2 hB
      have := List.length_pos_iff.2 hE
      have := List.length_pos_iff.2 hF
      rw [hr'.1, hr'.2]
      simp only [List.length_append]
      omega
    have hde := hcons.2.2 (by
      intro r hr
      simp only [List.mem_cons, List.not_mem_nil, or_false] at hr
      rcases hr with rfl | rfl
      · obtain ⟨cs, e⟩ := gi.1; rw [e]; exact depotEnds_wrap cs
      · obtain ⟨cs, e⟩ := gj.1; rw [e]; exact depotEnds_wrap cs)
    simp only [List.map_cons, List.map_nil, List.mem_cons, List.not_mem_nil, or_false, forall_eq_or_imp,
      forall_eq] at hde
    have ga : GoodRd D (some d) C a := ⟨wrap_of_depotEnds hde.1 hlen.1, hb a (by simp)⟩
    have gb : GoodRd D (some d) C b := ⟨wrap_of_depotEnds hde.2 hlen.2, hb b (by simp)⟩
    have hin : (interior a.route ++ interior b.route).Perm (interior rd1.route ++ interior rd2.route) := by
      have := interior_perm (rs := [rd1.route, rd2.route]) (rs' := [a.route, b.route])
        (by simp [gi.1, gj.1]) (by simp [ga.1, gb.1]) rfl (by simpa using hcons.1)
      simpa using this
    have hgj' : (rds.set i a)[j]? = some rd2 := by rw [List.getElem?_set_ne hij]; exact hgj
    have hmem : ∀ y ∈ (rds.set i a).set j b, y ∈ rds ∨ y = a ∨ y = b := by
      intro y hy
      rcases List.mem_or_eq_of_mem_set hy with hy | rfl
      · rcases List.mem_or_eq_of_mem_set hy with hy | rfl
        · exact .inl hy
        · exact .inr (.inl rfl)
      · exact .inr (.inr rfl)
    refine ⟨_, true, rfl, ⟨⟨?_, ?_, ?_⟩, by simp, fun _ => ?_, by simp⟩, by simp⟩
    · intro y hy
      rcases hmem y hy with hy | rfl | rfl
      · exact h y hy
      · exact ga
      · exact gb
    · have p1 := served_set hgi a
      have p2 := served_set hgj' b
      rw [List.perm_iff_count] at p1 p2 hin ⊢
      intro y
      have q1 := p1 y
      have q2 := p2 y
      have q3 := hin y
      simp only [List.count_append] at q1 q2 q3
      omega
    · intro hD hd hf
      have := C16_feasible (L := L) gi.2 gj.2 hD (by rintro f ⟨⟩; exact hd) (by
        intro r hr
        simp only [List.mem_cons, List.not_mem_nil, or_false] at hr
        rcases hr with rfl | rfl
        · exact hf _ (List.mem_of_getElem? hgi)
        · exact hf _ (List.mem_of_getElem? hgj)) e
      intro y hy
      rcases hmem y hy with hy | rfl | rfl
      · exact hf y hy
      · exact this _ (by simp)
      · exact this _ (by simp)
    · rw [tot_set hgj', tot_set hgi]
      simp only [total, List.map_cons, List.map_nil, List.sum_cons, List.sum_nil] at ht
      linarith

theorem moveAll_spec {i n : ℕ} (hi : i < n) (js : List ℕ) (hjs : ∀ j ∈ js, j < n) :
    ∀ {rds : List RouteData}, rds.length = n → (∀ rd ∈ rds, GoodRd D (some d) C rd) → ∀ imp,
    ∃ rds' b, whMoveAll D d C L i js rds imp = .ok (rds', imp || b) ∧ WhProg D d C L rds rds' b ∧
      (b = false → ∀ j ∈ js, i ≠ j → ∀ r1 r2, rds[i]? = some r1 → rds[j]? = some r2 →
        NoMove D d C L r1.route r2.route) := by
  induction js with
  | nil =>
    intro rds _ h imp
    exact ⟨rds, false, by simp [whMoveAll], whProg_refl h, by simp⟩
  | cons j js ih =>
    intro rds hn h imp
    have hj := hjs j (by simp)
    obtain ⟨rds1, b1, e1, p1, n1⟩ := moveTo_spec (L := L) h (i := i) (j := j) (by omega) (by omega)
    obtain ⟨rds2, b2, e2, p2, n2⟩ := ih (fun k hk => hjs k (List.mem_cons_of_mem _ hk)) (p1.length.trans hn) p1.good
      (imp || b1)
    refine ⟨rds2, b1 || b2, ?_, whProg_trans p1 p2, ?_⟩
    · rw [whMoveAll, e1]
      simp only
      rw [e2, Bool.or_assoc]
    · intro hb k hk hik r1 r2 hr1 hr2
      simp only [Bool.or_eq_false_iff] at hb
      rcases List.mem_cons.1 hk with rfl | hk
      · have := n1 hb.1 hik
        rw [List.getElem?_eq_some_iff] at hr1 hr2
        obtain ⟨_, rfl⟩ := hr1
        obtain ⟨_, rfl⟩ := hr2
        exact this
      · have := p1.none hb.1
        subst this
        exact n2 hb.2 k hk hik r1 r2 hr1 hr2

theorem relocate_spec {rds : List RouteData} (h : ∀ rd ∈ rds, GoodRd D (some d) C rd) {i : ℕ} {rd : RouteData}
    (hi : rds[i]? = some rd) :
    ∃ rd' b, whRelocate D rd = .ok (rd', b) ∧ WhProg D d C L rds (rds.set i rd') b ∧
      (b = false → NoRelocation D rd.route) := by
  have hg := h rd (List.mem_of_getElem? hi)
  obtain ⟨r, e, hr⟩ := C14_sound D rd.route .FIRST_ACCEPT none
  rw [whRelocate, e]
  cases r with
  | none =>
    refine ⟨rd, false, rfl, ?_, fun _ hnd h0 r' hn hlt => ?_⟩
    · rw [show rds.set i rd = rds from ?_]
      · exact whProg_refl h
      · obtain ⟨hl, rfl⟩ := List.getElem?_eq_some_iff.1 hi
        exact List.set_getElem_self hl
    · obtain ⟨⟨cs, ec⟩, -⟩ := hg
      have hcirc : Circuit rd.route := by
        rw [ec] at hnd h0 ⊢
        have hi : (wrap cs).tail.dropLast = cs := interior_wrap cs
        rw [hi] at hnd h0
        exact ⟨0, cs, 0, rfl, List.nodup_cons.2 ⟨h0, hnd⟩, h0⟩
      obtain ⟨r2, e2, hr2⟩ := C14_relocate D hcirc .FIRST_ACCEPT none
      rw [e] at e2
      injection e2 with e2
      subst e2
      exact hr2 r' hn (by simp only [Option.getD_none]; linarith)
  | some p =>
    obtain ⟨r', x⟩ := p
    obtain ⟨h1, h2, h3⟩ := C14_same_nodes e
    obtain ⟨-, h4, h5, -⟩ := hr
    simp only [Option.getD_none] at h5
    obtain ⟨g1, g2⟩ := good_reorder hg h1 h2 h3 h4
    exact ⟨_, true, rfl, whProg_one h hi g1 g2 h1 (by show cost D r' + S_EPS < _; linarith), by simp⟩

theorem singleOnce_spec {rds : List RouteData} (h : ∀ rd ∈ rds, GoodRd D (some d) C rd) {i : ℕ}
    (hi : i < rds.length) :
    ∃ rds' b, whSingleOnce D d C L i rds = .ok (rds', b) ∧ WhProg D d C L rds rds' b ∧
      (b = false → ∀ rd, rds[i]? = some rd → NoRelocation D rd.route ∧
        ∀ j, i ≠ j → ∀ rd2, rds[j]? = some rd2 → NoMove D d C L rd.route rd2.route) := by
  have hgi : rds[i]? = some rds[i] := List.getElem?_eq_getElem hi
  obtain ⟨rd', b1, e1, p1, n1⟩ := relocate_spec (L := L) h hgi
  obtain ⟨rds2, b2, e2, p2, n2⟩ := moveAll_spec (L := L) hi (List.range rds.length) (by simp) p1.length p1.good b1
  refine ⟨rds2, b1 || b2, ?_, whProg_trans p1 p2, ?_⟩
  · rw [whSingleOnce, idx_of_lt hi]
    simp only
    rw [e1]
    simp only
    rw [e2]
  · intro hb rd hrd
    simp only [Bool.or_eq_false_iff] at hb
    rw [hgi] at hrd
    injection hrd with hrd
    subst hrd
    refine ⟨n1 hb.1, fun j hij rd2 hrd2 => ?_⟩
    have hs := p1.none hb.1
    have hj : j ∈ List.range rds.length := List.mem_range.2 (List.getElem?_eq_some_iff.1 hrd2).1
    exact n2 hb.2 j hj hij _ rd2 (by rw [hs]; exact hgi) (by rw [hs]; exact hrd2)

theorem singleRoute_spec (hD : ∀ i j, 0 ≤ D i j) (i : ℕ) (k : ℕ) :
    ∀ {rds : List RouteData}, (∀ rd ∈ rds, GoodRd D (some d) C rd) → i < rds.length → tot D rds ≤ k * S_EPS →
    ∃ rds' b, (∀ imp fuel, k + 1 ≤ fuel → whSingleRoute D d C L i fuel rds imp = .ok (some (rds', imp || b))) ∧
      WhProg D d C L rds rds' b ∧
      (∀ rd, rds'[i]? = some rd → NoRelocation D rd.route ∧
        ∀ j, i ≠ j → ∀ rd2, rds'[j]? = some rd2 → NoMove D d C L rd.route rd2.route) := by
  induction k with
  | zero =>
    intro rds h hi hc
    obtain ⟨rds1, b, e, p, n⟩ := singleOnce_spec (L := L) h hi
    cases b with
    | true =>
      have := p.gain rfl
      have := tot_nonneg hD rds1
      have := S_EPS_pos
      rw [Nat.cast_zero, zero_mul] at hc
      linarith
    | false =>
      have hs := p.none rfl
      refine ⟨rds1, false, ?_, p, by rw [hs]; exact n rfl⟩
      intro imp fuel hf
      obtain ⟨fuel, rfl⟩ : ∃ f, fuel = f + 1 := ⟨fuel - 1, by omega⟩
      rw [whSingleRoute, e]
      simp
  | succ k ih =>
    intro rds h hi hc
    obtain ⟨rds1, b, e, p, n⟩ := singleOnce_spec (L := L) h hi
    cases b with
    | true =>
      have hg := p.gain rfl
      obtain ⟨rds2, b2, i1, i2, i3⟩ := ih p.good (by rw [p.length]; exact hi) (by push_cast at hc; linarith)
      refine ⟨rds2, true, ?_, by simpa using whProg_trans p i2, i3⟩
      intro imp fuel hf
      obtain ⟨fuel, rfl⟩ : ∃ f, fuel = f + 1 := ⟨fuel - 1, by omega⟩
      rw [whSingleRoute, e]
      simp only
      rw [i1 true fuel (by omega)]
      simp
    | false =>
      have hs := p.none rfl
      refine ⟨rds1, false, ?_, p, by rw [hs]; exact n rfl⟩
      intro imp fuel hf
      obtain ⟨fuel, rfl⟩ : ∃ f, fuel = f + 1 := ⟨fuel - 1, by omega⟩
      rw [whSingleRoute, e]
      simp

theorem noMove_short {r1 r2 : List ℕ} (h : r1.length ≤ 2) : NoMove D d C L r1 r2 := by
  rintro r1' r2' ⟨A, B, E, F, n, hA, hB, hE, hF, hr, -⟩
  simp only [List.cons.injEq, and_true] at hr
  have := List.length_pos_iff.2 hA
  have := List.length_pos_iff.2 hB
  rw [hr.1] at h
  simp only [List.length_append, List.length_cons, List.length_nil] at h
  omega

theorem noRelocation_short {r : List ℕ} (h : r.length ≤ 2) : NoRelocation D r := by
  rintro - - r' ⟨A, M, E, n, hA, hM, hE, ⟨rfl, -⟩ | ⟨rfl, -⟩⟩
  all_goals
    have := List.length_pos_iff.2 hA
    have := List.length_pos_iff.2 hM
    have := List.length_pos_iff.2 hE
    simp only [List.length_append, List.length_cons, List.length_nil] at h
    omega

theorem singleOne_spec (hD : ∀ i j, 0 ≤ D i j) {rds : List RouteData} (h : ∀ rd ∈ rds, GoodRd D (some d) C rd)
    {i : ℕ} (hi : i < rds.length) :
    ∃ rds' b, (∃ F, ∀ fuel, F ≤ fuel → whSingleOne fuel D d C L i rds = .ok (some (rds', b))) ∧
      WhProg D d C L rds rds' b ∧ Settled D d C L rds' i := by
  by_cases he : rds[i].is_empty = true
  · refine ⟨rds, false, ⟨0, fun fuel _ => ?_⟩, whProg_refl h, ?_⟩
    · rw [whSingleOne, idx_of_lt hi]
      simp only
      rw [if_pos he]
    · intro rd hrd
      rw [List.getElem?_eq_getElem hi] at hrd
      injection hrd with hrd
      subst hrd
      exact ⟨noRelocation_short (empty_route he), fun j _ rd2 _ => noMove_short (empty_route he)⟩
  · obtain ⟨k, hk⟩ := exists_bound (tot D rds)
    obtain ⟨rds', b, h1, h2, h3⟩ := singleRoute_spec (L := L) hD i k h hi hk
    refine ⟨rds', b, ⟨k + 1, fun fuel hf => ?_⟩, h2, h3⟩
    rw [whSingleOne, idx_of_lt hi]
    simp only
    rw [if_neg he, h1 false fuel hf]
    simp

theorem singleLoop_spec (hD : ∀ i j, 0 ≤ D i j) {n : ℕ} (is : List ℕ) (his : ∀ i ∈ is, i < n) :
    ∀ {rds : List RouteData}, (∀ rd ∈ rds, GoodRd D (some d) C rd) → rds.length = n → 
    ∃ rds' b, (∃ F, ∀ imp fuel, F ≤ fuel → whSingleLoop fuel D d C L is rds imp = .ok (some (rds', imp || b))) ∧
      WhProg D d C L rds rds' b ∧ (b = false → ∀ i ∈ is, Settled D d C L rds i) := by
  induction is with
  | nil =>
    intro rds h _
    exact ⟨rds, false, ⟨0, fun imp fuel _ => by simp [whSingleLoop]⟩, whProg_refl h, by simp⟩
  | cons i is ih =>
    intro rds h hn
    obtain ⟨rds1, b1, ⟨F1, e1⟩, p1, s1⟩ := singleOne_spec (L := L) hD h (i := i) (by rw [hn]; exact his i (by simp))
    obtain ⟨rds2, b2, ⟨F2, e2⟩, p2, s2⟩ := ih (fun k hk => his k (List.mem_cons_of_mem _ hk)) p1.good
      (p1.length.trans hn)
    refine ⟨rds2, b1 || b2, ⟨F1 + F2, fun imp fuel hf => ?_⟩, whProg_trans p1 p2, ?_⟩
    · rw [whSingleLoop, e1 fuel (by omega)]
      simp only
      rw [e2 _ fuel (by omega), Bool.or_assoc]
    · intro hb k hk
      simp only [Bool.or_eq_false_iff] at hb
      have hs := p1.none hb.1
      subst hs
      rcases List.mem_cons.1 hk with rfl | hk
      · exact s1
      · exact s2 hb.2 k hk

theorem single_spec (hD : ∀ i j, 0 ≤ D i j) {rds : List RouteData} (h : ∀ rd ∈ rds, GoodRd D (some d) C rd) :
    ∃ rds' b, (∃ F, ∀ fuel, F ≤ fuel → single_heuristic fuel D d C L rds = .ok (some (rds', b))) ∧
      WhProg D d C L rds rds' b ∧ (b = false → ∀ i, i < rds.length → Settled D d C L rds i) := by
  obtain ⟨rds', b, ⟨F, e⟩, p, s⟩ := singleLoop_spec (L := L) hD (List.range rds.length) (n := rds.length) (by simp) h rfl
  refine ⟨rds', b, ⟨F, fun fuel hf => ?_⟩, p, fun hb i hi => s hb i (List.mem_range.2 hi)⟩
  rw [single_heuristic, e false fuel hf]
  simp

end

end Verif
