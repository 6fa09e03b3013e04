import Verif.Lemmas.PetalRelax

/-! # Lemmas on the search of the relaxed petals -/

namespace Verif
open Spec

variable {P Q : List ℕ} {N : ℕ} {D : ℕ → ℕ → ℚ} {d : ℕ → ℚ} {C L : Option ℚ} {us : List (List ℕ)} {A B w : List ℕ}
  {m : ℕ} {ss kept : List (List ℕ)}

theorem rx_ok_bind {α β : Type} (x : α) (f : α → Py β) : ((.ok x : Py α) >>= f) = f x := rfl

/-- The weight of an entry, for a route with `n` customers. -/
def rxWeight (n : ℕ) (e : RxEntry) : ℕ := 2 ^ (n - e.last)

/-- What holds for the entries of the stack. -/
def RxOk (d : ℕ → ℚ) (w : List ℕ) (e : RxEntry) : Prop :=
  e.last ≤ w.length ∧ e.ns.Sublist (w.take e.last) ∧ e.dem = demand d e.ns

theorem weight_sum (n k : ℕ) : ∀ (t : List ℕ) (o : ℕ), n = k + o + t.length →
    ((t.zipIdx o).map fun c => 2 ^ (n - (k + 1 + c.2))).sum + 1 = 2 ^ (n - (k + o))
  | [], o, h => by simp at h; simp [h]
  | x :: t, o, h => by
    simp only [List.length_cons] at h
    have ih := weight_sum n k t (o + 1) (by omega)
    rw [List.zipIdx_cons, List.map_cons, List.sum_cons]
    rw [Nat.add_assoc, ih]
    have e1 : n - (k + o) = t.length + 1 := by omega
    have e2 : n - (k + 1 + o) = t.length := by omega
    have e3 : n - (k + (o + 1)) = t.length := by omega
    simp only
    rw [e1, e2, e3, pow_succ]
    omega

theorem slice_wrap (w : List ℕ) (k : ℕ) :
    slice (wrap w) (k + 1) ((wrap w).length - 1) = w.drop k := by
  unfold slice wrap
  simp

theorem slice_wrap1 (w : List ℕ) : slice (wrap w) 1 ((wrap w).length - 1) = w := slice_wrap w 0

theorem mem_zipIdx_sub {t : List ℕ} {c : ℕ × ℕ} (h : c ∈ t.zipIdx) : c.2 < t.length ∧ [c.1].Sublist (t.take (c.2 + 1)) := by
  have := List.mem_zipIdx' h
  obtain ⟨h1, h2⟩ := this
  refine ⟨h1, ?_⟩
  rw [List.singleton_sublist, h2]
  rw [List.mem_take_iff_getElem]
  exact ⟨c.2, by omega, rfl⟩

theorem rxBranch_spec (dm : Option ℤ) {e : RxEntry} (he : RxOk d (P ++ Q) e) :
    (∀ e' ∈ rxBranch (rxA D d C L dm A m B P Q ss) e, RxOk d (P ++ Q) e') ∧
      ((rxBranch (rxA D d C L dm A m B P Q ss) e).map (rxWeight (P ++ Q).length)).sum + 1 =
        rxWeight (P ++ Q).length e := by
  obtain ⟨h1, h2, h3⟩ := he
  unfold rxBranch
  simp only
  rw [slice_wrap]
  constructor
  · intro e' he'
    rw [List.mem_reverse, List.mem_map] at he'
    obtain ⟨c, hc, rfl⟩ := he'
    obtain ⟨c1, c2⟩ := mem_zipIdx_sub hc
    rw [List.length_drop] at c1
    refine ⟨by simp only; omega, ?_, ?_⟩
    · simp only
      rw [show e.last + 1 + c.2 = e.last + (c.2 + 1) by omega, List.take_add]
      exact List.Sublist.append h2 c2
    · simp only
      rw [demand_append, h3]
      simp
  · rw [List.map_reverse, List.sum_reverse, List.map_map]
    have := weight_sum (P ++ Q).length e.last ((P ++ Q).drop e.last) 0 (by rw [List.length_drop]; omega)
    rw [Nat.add_zero] at this
    exact this

theorem rxSearch_spec (h : RxCtx N D d C L us A m B (P ++ Q) ss kept) (dm : Option ℤ) :
    ∀ (fuel : ℕ) (stack : List RxEntry) (acc : List RouteData),
      (∀ e ∈ stack, RxOk d (P ++ Q) e ∧ (e.ns.length ≤ 1 ∨ MayDiscard dm e.ns.length)) →
      (stack.map (rxWeight (P ++ Q).length)).sum ≤ fuel →
      ∃ gs : List (List RouteData), rxSearch (rxA D d C L dm A m B P Q ss) fuel stack acc =
        .ok (some (acc ++ gs.flatten)) ∧ ∀ g ∈ gs, RelaxGroup D d C L dm us g
  | fuel, [], acc, _, _ => ⟨[], by simp [rxSearch], by simp⟩
  | 0, e :: stack, acc, _, hw => by
    have : 0 < rxWeight (P ++ Q).length e := by unfold rxWeight; positivity
    simp only [List.map_cons, List.sum_cons] at hw
    omega
  | fuel + 1, e :: stack, acc, hok, hw => by
    obtain ⟨he, hlim⟩ := hok e (List.mem_cons_self ..)
    obtain ⟨rds, es, r1, r2, r3⟩ := rxVisit_group h dm (e := e) (he.2.1.trans (List.take_sublist ..)) he.2.2 hlim
    obtain ⟨b1, b2⟩ := rxBranch_spec (D := D) (C := C) (L := L) (A := A) (B := B) (m := m) (ss := ss) dm he
    simp only [List.map_cons, List.sum_cons] at hw
    have hes : (∀ e' ∈ es, RxOk d (P ++ Q) e' ∧ (e'.ns.length ≤ 1 ∨ MayDiscard dm e'.ns.length)) ∧
        (es.map (rxWeight (P ++ Q).length)).sum + 1 ≤ rxWeight (P ++ Q).length e := by
      rcases r3 with rfl | ⟨rfl, hmay⟩
      · refine ⟨by simp, ?_⟩
        have : 0 < rxWeight (P ++ Q).length e := by unfold rxWeight; positivity
        rw [List.map_nil, List.sum_nil]
        omega
      · refine ⟨fun e' he' => ⟨b1 e' he', Or.inr ?_⟩, b2.le⟩
        unfold rxBranch at he'
        rw [List.mem_reverse, List.mem_map] at he'
        obtain ⟨c, -, rfl⟩ := he'
        simpa using hmay
    obtain ⟨gs, g1, g2⟩ := rxSearch_spec h dm fuel (es ++ stack) (acc ++ rds) (by
      intro e' he'
      rcases List.mem_append.1 he' with he' | he'
      · exact hes.1 e' he'
      · exact hok e' (List.mem_cons_of_mem _ he')) (by
      rw [List.map_append, List.sum_append]
      omega)
    unfold rxSearch
    rw [r1]
    simp only
    rw [g1]
    rcases r2 with rfl | r2
    · exact ⟨gs, by simp, g2⟩
    · refine ⟨rds :: gs, by simp, ?_⟩
      intro g hg
      rcases List.mem_cons.1 hg with rfl | hg
      · exact r2
      · exact g2 g hg

/-! ## One customer and one route -/

theorem others_sublist (us : List (List ℕ)) (i j : ℕ) : (others us i j).Sublist us := by
  have : (others us i j).Sublist (us.zipIdx.map Prod.fst) := List.Sublist.map _ List.filter_sublist
  rwa [List.zipIdx_map_fst] at this

theorem others_perm {us : List (List ℕ)} {i j : ℕ} {u w : List ℕ} (hi : us[i]? = some u) (hj : us[j]? = some w)
    (hij : i ≠ j) : us.Perm (u :: w :: others us i j) := by
  have hn : us.zipIdx.Nodup := by
    refine List.Nodup.of_map Prod.snd ?_
    rw [List.zipIdx_map_snd]
    exact List.nodup_range'
  have h1 : (us.zipIdx.filter fun c => !decide (c.2 ≠ i ∧ c.2 ≠ j)).Perm [(u, i), (w, j)] := by
    rw [List.perm_ext_iff_of_nodup (hn.filter _) (by simp [hij])]
    rintro ⟨x, k⟩
    simp only [List.mem_filter, List.mem_cons, List.not_mem_nil, or_false, List.mk_mem_zipIdx_iff_getElem?,
      Bool.not_eq_true', decide_eq_false_iff_not, Prod.mk.injEq]
    constructor
    · rintro ⟨h1, h2⟩
      by_cases c : k = i
      · subst c
        rw [hi] at h1
        injection h1 with h1
        exact Or.inl ⟨h1.symm, rfl⟩
      · have c' : k = j := by
          by_contra c'
          exact h2 ⟨c, c'⟩
        subst c'
        rw [hj] at h1
        injection h1 with h1
        exact Or.inr ⟨h1.symm, rfl⟩
    · rintro (⟨rfl, rfl⟩ | ⟨rfl, rfl⟩)
      · exact ⟨hi, by simp⟩
      · exact ⟨hj, by simp⟩
  have h2 := (List.filter_append_perm (fun c : List ℕ × ℕ => !decide (c.2 ≠ i ∧ c.2 ≠ j)) us.zipIdx).map Prod.fst
  rw [List.map_append, List.zipIdx_map_fst] at h2
  have h3 : ((us.zipIdx.filter fun c => !!decide (c.2 ≠ i ∧ c.2 ≠ j)).map Prod.fst) = others us i j := by
    simp [others]
  rw [h3] at h2
  refine h2.symm.trans ?_
  exact (h1.map Prod.fst).append_right _

theorem min_lt_iff {l : List ℚ} {x y : ℚ} (hx : l.min? = some x) : x < y ↔ ∃ z ∈ l, z < y := by
  rw [List.min?_eq_some_iff] at hx
  constructor
  · intro h
    exact ⟨x, hx.1, h⟩
  · rintro ⟨z, hz, h⟩
    exact lt_of_le_of_lt (hx.2 z hz) h

theorem roomFor_iff (C : Option ℚ) (d : ℕ → ℚ) {w : List ℕ} {x : ℚ} (hx : (w.map d).min? = some x) (u : List ℕ)
    (ct : truthy C = true) : roomFor C d w u = true ↔ x < C.getD 0 - demand d u + C_EPS := by
  rw [truthy_iff] at ct
  obtain ⟨c, rfl, hc⟩ := ct
  rw [min_lt_iff hx]
  simp [roomFor, hc]

theorem rxSlack_spec (h0 : d 0 = 0) {x : ℚ} (hx : (w.map d).min? = some x) (i j : ℕ) : ∀ l : List (List ℕ × ℕ),
    rxSlack C x i j (l.map fun c => (rdOf D d c.1, c.2)) =
      .ok ((((l.filter fun c => decide (c.2 ≠ i ∧ c.2 ≠ j)).map Prod.fst).filter (roomFor C d w)).map (rdOf D d))
  | [] => rfl
  | (u, k) :: l => by
    rw [List.map_cons]
    unfold rxSlack
    rw [rxSlack_spec h0 hx i j l]
    simp only
    by_cases c : k = i ∨ k = j
    · rw [if_pos c]
      have : ¬ (k ≠ i ∧ k ≠ j) := by tauto
      rw [List.filter_cons_of_neg (by simpa using this)]
    · rw [if_neg c]
      have hf : k ≠ i ∧ k ≠ j := by tauto
      rw [List.filter_cons_of_pos (by simpa using hf), List.map_cons]
      by_cases ct : truthy C = true
      · rw [if_pos ct, rdOf_demand D h0]
        simp only [num]
        by_cases hr : roomFor C d w u = true
        · rw [if_pos ((roomFor_iff C d hx u ct).1 hr), List.filter_cons_of_pos hr]
          rfl
        · rw [if_neg (fun hh => hr ((roomFor_iff C d hx u ct).2 hh)), List.filter_cons_of_neg hr]
      · rw [if_neg ct]
        have hr : roomFor C d w u = true := by
          rw [truthy_iff] at ct
          unfold roomFor
          cases C with
          | none => rfl
          | some c =>
            have : c = 0 := by
              by_contra hc
              exact ct ⟨c, rfl, hc⟩
            simp [this]
        rw [List.filter_cons_of_pos hr]
        rfl

theorem cheapest_unique {P Q P' Q' : List ℕ} (h : CheapestPlace D m P Q) (h' : CheapestPlace D m P' Q')
    (he : P' ++ Q' = P ++ Q) : P' = P ∧ Q' = Q := by
  have h1 := h P' Q' he
  have h2 := h' P Q he.symm
  have : P'.length = P.length := by
    rcases Nat.lt_trichotomy P'.length P.length with c | c | c
    · have := h1.2 c
      linarith [h2.1]
    · exact c
    · have := h2.2 c
      linarith [h1.1]
  exact List.append_inj he this

/-- What is asked of the arguments and the routes. -/
structure RxHyp (N : ℕ) (D : ℕ → ℕ → ℚ) (d : ℕ → ℚ) (C L : Option ℚ) (us : List (List ℕ)) : Prop where
  part : PartSol N D d C L us
  nn : ∀ n, 0 ≤ d n
  d0 : d 0 = 0
  D0 : D 0 0 = 0
  tri : Triangle D

theorem rx_ctx (h : RxHyp N D d C L us) {i j : ℕ} (hi : us[i]? = some (A ++ m :: B)) (hj : us[j]? = some w)
    (hij : i ≠ j) : RxCtx N D d C L us A m B w ((others us i j).filter (roomFor C d w))
      ((others us i j).filter fun u => !roomFor C d w u) := by
  refine .mk h.part h.nn h.d0 h.D0 h.tri ((others_perm hi hj hij).trans (List.Perm.cons _ (List.Perm.cons _ ?_)))
    (List.Sublist.trans List.filter_sublist (others_sublist us i j)) ⟨i, j, hi, hj, hij⟩
  exact (List.filter_append_perm _ _).symm

theorem regain_spec (h : RxHyp N D d C L us) (dm : Option ℤ) {i j : ℕ} (hi : us[i]? = some (A ++ m :: B))
    (hj : us[j]? = some (P ++ Q)) (hij : i ≠ j) {fuel : ℕ} (hf : 2 ^ (P ++ Q).length ≤ fuel) (hne : P ++ Q ≠ []) :
    ∃ gs : List (List RouteData), regain_feasibility fuel m (cost D (wrap (A ++ B)) - cost D (wrap (A ++ m :: B)))
      (cost D (wrap (P ++ m :: Q)) - cost D (wrap (P ++ Q))) (rdOf D d (A ++ B)) i j dm
      (rxExc C C_EPS (demand d (P ++ Q) + d m)) (rxExc L S_EPS (cost D (wrap (P ++ m :: Q))))
      (us.map (rdOf D d)) D d C L = .ok (some gs.flatten) ∧ ∀ g ∈ gs, RelaxGroup D d C L dm us g := by
  unfold regain_feasibility
  have hidx : idx (us.map (rdOf D d)) j = .ok (rdOf D d (P ++ Q)) := by
    simp [idx, hj]
  simp only [hidx, rx_ok_bind, rdOf_demand D h.d0, num, rdOf_route, slice_wrap1]
  cases hm : ((P ++ Q).map d).min? with
  | none =>
    rw [List.min?_eq_none_iff, List.map_eq_nil_iff] at hm
    exact absurd hm hne
  | some x =>
    simp only
    have hz : (us.map (rdOf D d)).zipIdx = us.zipIdx.map fun c => (rdOf D d c.1, c.2) := by
      rw [List.zipIdx_map]
      rfl
    rw [hz, rxSlack_spec h.d0 hm i j us.zipIdx]
    simp only [rx_ok_bind, rdOf_cost]
    have hperm := others_perm hi hj hij
    set ss := ((us.zipIdx.filter fun c => decide (c.2 ≠ i ∧ c.2 ≠ j)).map Prod.fst).filter (roomFor C d (P ++ Q)) with hss
    have hctx := rx_ctx h hi hj hij
    rw [others, ← hss] at hctx
    have hsl : ss.map (rdOf D d) ++ [rdOf D d (A ++ B), RouteData.new] = (ss ++ [A ++ B, []]).map (rdOf D d) := by
      have : RouteData.new = rdOf D d [] :=
        eq_rdOf (u := []) h.d0 (by simp [wrap, h.D0]) (by simp)
      rw [this]
      simp
    rw [hsl]
    have hstack := weight_sum (P ++ Q).length 0 (P ++ Q) 0 (by simp)
    obtain ⟨gs, g1, g2⟩ := rxSearch_spec hctx dm fuel ((P ++ Q).zipIdx.map fun c =>
      ({ last := c.2 + 1, ns := [c.1], dem := d c.1 } : RxEntry)).reverse [] (by
        intro e he
        rw [List.mem_reverse, List.mem_map] at he
        obtain ⟨c, hc, rfl⟩ := he
        obtain ⟨c1, c2⟩ := mem_zipIdx_sub hc
        exact ⟨⟨by simp only; omega, c2, by simp⟩, by simp⟩) (by
        rw [List.map_reverse, List.sum_reverse, List.map_map]
        have e : ((P ++ Q).zipIdx.map (rxWeight (P ++ Q).length ∘ fun c : ℕ × ℕ =>
            ({ last := c.2 + 1, ns := [c.1], dem := d c.1 } : RxEntry))) =
            ((P ++ Q).zipIdx 0).map fun c => 2 ^ ((P ++ Q).length - (0 + 1 + c.2)) := by
          apply List.map_congr_left
          intro c _
          simp only [Function.comp, rxWeight]
          congr 2
          omega
        rw [e]
        rw [show (P ++ Q).length - (0 + 0) = (P ++ Q).length by omega] at hstack
        omega)
    refine ⟨gs, ?_, g2⟩
    rw [List.nil_append] at g1
    exact g1

theorem rxTry_spec (h : RxHyp N D d C L us) (dm : Option ℤ) {i j : ℕ} (hi : us[i]? = some (A ++ m :: B))
    (hj : us[j]? = some w) (hij : i ≠ j) {fuel : ℕ} (hf : 2 ^ w.length ≤ fuel) :
    ∃ gs : List (List RouteData), rxTry fuel dm D d C L (us.map (rdOf D d)) (rdOf D d (A ++ m :: B)) i (A.length + 1)
      m (cost D (wrap (A ++ B)) - cost D (wrap (A ++ m :: B))) (rdOf D d w) j = .ok (some gs.flatten) ∧
      (∀ g ∈ gs, RelaxGroup D d C L dm us g) ∧
      ∀ P Q, P ++ Q = w → CheapestPlace D m P Q → RouteOk D d C L (P ++ m :: Q) →
        cost D (wrap (A ++ B)) + cost D (wrap (P ++ m :: Q)) + S_EPS < cost D (wrap (A ++ m :: B)) + cost D (wrap w) →
        [rdOf D d (A ++ B), rdOf D d (P ++ m :: Q)] ∈ gs := by
  obtain ⟨P, Q, b, e1, e2, e3, e4⟩ := rxScan_wrap D m w
  subst e1
  have hperm := others_perm hi hj hij
  have hctx : RxCtx N D d C L us A m B (P ++ Q) [] (others us i j) :=
    .mk h.part h.nn h.d0 h.D0 h.tri (by simpa using hperm) (others_sublist us i j) ⟨i, j, hi, hj, hij⟩
  have hAok : RouteOk D d C L (A ++ m :: B) := h.part.ok _ (List.mem_of_getElem? hi)
  unfold rxTry
  rw [rdOf_route, rdOf_route, rdOf_cost, rdOf_cost, rdOf_demand D h.d0, rdOf_demand D h.d0, e2]
  simp only [num]
  by_cases c : cost D (wrap (A ++ B)) - cost D (wrap (A ++ m :: B)) +
      (cost D (wrap (P ++ m :: Q)) - cost D (wrap (P ++ Q))) < -S_EPS
  · rw [if_pos c]
    have t1 : (wrap (A ++ m :: B)).take (A.length + 1) ++ (wrap (A ++ m :: B)).drop (A.length + 1 + 1) =
        wrap (A ++ B) := by
      simp [wrap]
    simp only [rx_ok_bind]
    rw [t1, e3]
    rw [eq_rdOf (D := D) h.d0 (u := A ++ B) (by ring) (show demand d (A ++ m :: B) - d m = demand d (A ++ B) by
      simp; ring)]
    rw [eq_rdOf (D := D) h.d0 (u := P ++ m :: Q) (by ring)
      (show demand d (P ++ Q) + d m = demand d (P ++ m :: Q) by simp; ring)]
    rw [show cost D (wrap (P ++ Q)) + (cost D (wrap (P ++ m :: Q)) - cost D (wrap (P ++ Q))) =
      cost D (wrap (P ++ m :: Q)) by ring]
    change ∃ gs : List (List RouteData), (if (truthy (rxExc C C_EPS (demand d (P ++ Q) + d m)) ||
        truthy (rxExc L S_EPS (cost D (wrap (P ++ m :: Q))))) = true then
        regain_feasibility fuel m (cost D (wrap (A ++ B)) - cost D (wrap (A ++ m :: B)))
          (cost D (wrap (P ++ m :: Q)) - cost D (wrap (P ++ Q))) (rdOf D d (A ++ B)) i j dm
          (rxExc C C_EPS (demand d (P ++ Q) + d m)) (rxExc L S_EPS (cost D (wrap (P ++ m :: Q))))
          (us.map (rdOf D d)) D d C L
        else .ok (some [rdOf D d (A ++ B), rdOf D d (P ++ m :: Q)])) = .ok (some gs.flatten) ∧ _
    by_cases cx : (truthy (rxExc C C_EPS (demand d (P ++ Q) + d m)) ||
        truthy (rxExc L S_EPS (cost D (wrap (P ++ m :: Q))))) = true
    · rw [if_pos cx]
      have hno : ¬ RouteOk D d C L (P ++ m :: Q) := by
        intro hok
        have k1 : exceeds C C_EPS (demand d (P ++ Q) + d m) = false := by
          rw [exceeds_iff, show demand d (P ++ Q) + d m = demand d (P ++ m :: Q) by simp; ring]
          exact hok.1
        have k2 := (exceeds_iff L S_EPS _).2 hok.2
        unfold rxExc at cx
        rw [k1, k2] at cx
        simp [truthy] at cx
      have hne : P ++ Q ≠ [] := by
        intro he
        rw [List.append_eq_nil_iff] at he
        obtain ⟨rfl, rfl⟩ := he
        exact hno (routeOk_sublist h.nn h.tri (by simp) hAok)
      obtain ⟨gs, g1, g2⟩ := regain_spec h dm hi hj hij hf hne
      refine ⟨gs, g1, g2, ?_⟩
      intro P' Q' h1 h2 h3 h4
      obtain ⟨rfl, rfl⟩ := cheapest_unique e4 h2 h1
      exact absurd h3 hno
    · rw [if_neg cx]
      have hin : RouteOk D d C L (P ++ m :: Q) := by
        have k : ∀ lim eps x, 0 < eps → truthy (rxExc lim eps x) = false → Within lim eps x := by
          intro lim eps x he hx
          refine excess_within he (le_refl x) ?_
          rw [hx]
          rfl
        simp only [Bool.or_eq_true, not_or, Bool.not_eq_true] at cx
        refine ⟨?_, k _ _ _ (by unfold S_EPS; norm_num) cx.2⟩
        have := k _ _ _ (by unfold C_EPS; norm_num) cx.1
        rwa [show demand d (P ++ Q) + d m = demand d (P ++ m :: Q) by simp; ring] at this
      refine ⟨[[rdOf D d (A ++ B), rdOf D d (P ++ m :: Q)]], rfl, ?_, ?_⟩
      · intro g hg
        rw [List.mem_singleton] at hg
        subst hg
        refine ⟨others us i j, [A ++ B, P ++ m :: Q], others_sublist us i j, rfl, ?_, ?_, ?_, Or.inl ?_, m, P ++ Q, [],
          P ++ m :: Q, List.mem_of_getElem? hj, by simp, by simp, ⟨P, Q, by simp, rfl, e4⟩, by simp⟩
        · intro rd hrd
          simp only [List.mem_cons, List.not_mem_nil, or_false] at hrd
          rcases hrd with rfl | rfl
          · exact rdOf_book D C _
          · exact rdOf_book D C _
        · refine List.Perm.trans ?_ hperm.flatten.symm
          rw [List.perm_iff_count]
          intro y
          simp [List.count_append, List.count_cons]
          omega
        · intro v hv
          simp only [List.mem_cons, List.not_mem_nil, or_false] at hv
          rcases hv with rfl | rfl
          · refine routeOk_sublist h.nn h.tri ?_ hAok
            exact List.Sublist.append (List.Sublist.refl _) (List.sublist_cons_self ..)
          · exact hin
        · rw [cost_tour_sum, cost_tour_sum, (hperm.map fun b => cost D (wrap b)).sum_eq]
          simp
          have : (0 : ℚ) < S_EPS := by unfold S_EPS; norm_num
          linarith
      · intro P' Q' h1 h2 h3 h4
        obtain ⟨rfl, rfl⟩ := cheapest_unique e4 h2 h1
        simp
  · rw [if_neg c]
    refine ⟨[], rfl, by simp, ?_⟩
    intro P' Q' h1 h2 h3 h4
    obtain ⟨rfl, rfl⟩ := cheapest_unique e4 h2 h1
    exfalso
    apply c
    linarith

/-! ## The loops -/

/-- The result of a loop: all its parts are groups, and the groups of each round are in it. -/
def RxParts (D : ℕ → ℕ → ℚ) (d : ℕ → ℚ) (C L : Option ℚ) (dm : Option ℤ) (us : List (List ℕ)) (r : Py (Option (List RouteData)))
    (gs : List (List RouteData)) : Prop :=
  r = .ok (some gs.flatten) ∧ ∀ g ∈ gs, RelaxGroup D d C L dm us g

theorem rxRoutes_spec (h : RxHyp N D d C L us) (dm : Option ℤ) {i : ℕ} (hi : us[i]? = some (A ++ m :: B))
    {fuel : ℕ} (hf : ∀ u ∈ us, 2 ^ u.length ≤ fuel) : ∀ l : List (List ℕ × ℕ), (∀ c ∈ l, us[c.2]? = some c.1) →
    ∃ gs : List (List RouteData), RxParts D d C L dm us (rxRoutes fuel dm D d C L (us.map (rdOf D d))
      (rdOf D d (A ++ m :: B)) i (A.length + 1) m (cost D (wrap (A ++ B)) - cost D (wrap (A ++ m :: B)))
      (l.map fun c => (rdOf D d c.1, c.2))) gs ∧
      ∀ c ∈ l, c.2 ≠ i → ∀ P Q, P ++ Q = c.1 → CheapestPlace D m P Q → RouteOk D d C L (P ++ m :: Q) →
        cost D (wrap (A ++ B)) + cost D (wrap (P ++ m :: Q)) + S_EPS < cost D (wrap (A ++ m :: B)) + cost D (wrap c.1) →
        [rdOf D d (A ++ B), rdOf D d (P ++ m :: Q)] ∈ gs
  | [], _ => ⟨[], ⟨rfl, by simp⟩, by simp⟩
  | (w, j) :: l, hl => by
    obtain ⟨gs, ⟨g1, g2⟩, g3⟩ := rxRoutes_spec h dm hi hf l fun c hc => hl c (List.mem_cons_of_mem _ hc)
    have hj : us[j]? = some w := hl (w, j) (List.mem_cons_self ..)
    rw [List.map_cons]
    unfold rxRoutes
    by_cases c : i = j
    · rw [if_pos c]
      simp only
      rw [g1]
      refine ⟨gs, ⟨rfl, g2⟩, ?_⟩
      intro p hp hpi
      rcases List.mem_cons.1 hp with rfl | hp
      · exact absurd c.symm hpi
      · exact g3 p hp hpi
    · rw [if_neg c]
      obtain ⟨gs', k1, k2, k3⟩ := rxTry_spec h dm hi hj c (hf w (List.mem_of_getElem? hj))
      rw [k1]
      simp only
      rw [g1]
      refine ⟨gs' ++ gs, ⟨by simp, ?_⟩, ?_⟩
      · intro g hg
        rcases List.mem_append.1 hg with hg | hg
        · exact k2 g hg
        · exact g2 g hg
      · intro p hp hpi P Q hPQ hc hok hlt
        rcases List.mem_cons.1 hp with rfl | hp
        · exact List.mem_append_left _ (k3 P Q hPQ hc hok hlt)
        · exact List.mem_append_right _ (g3 p hp hpi P Q hPQ hc hok hlt)

/-- A move of a customer to its cheapest place on another route within the limits that gains enough. -/
def GoodMove (D : ℕ → ℕ → ℚ) (d : ℕ → ℚ) (C L : Option ℚ) (A : List ℕ) (m : ℕ) (B P Q : List ℕ) : Prop :=
  CheapestPlace D m P Q ∧ RouteOk D d C L (P ++ m :: Q) ∧
    cost D (wrap (A ++ B)) + cost D (wrap (P ++ m :: Q)) + S_EPS < cost D (wrap (A ++ m :: B)) + cost D (wrap (P ++ Q))

theorem wrap_nbrs (D : ℕ → ℕ → ℚ) (A : List ℕ) (m : ℕ) (B : List ℕ) : ∃ a b, idx (wrap (A ++ m :: B)) (A.length + 1 - 1) = .ok a ∧
    idx (wrap (A ++ m :: B)) (A.length + 1) = .ok m ∧ idx (wrap (A ++ m :: B)) (A.length + 1 + 1) = .ok b ∧
    D a b - D a m - D m b = cost D (wrap (A ++ B)) - cost D (wrap (A ++ m :: B)) := by
  have key : ∀ (A' : List ℕ) (a : ℕ) (b : ℕ) (B' : List ℕ), wrap (A ++ m :: B) = A' ++ a :: m :: b :: B' →
      A'.length = A.length → wrap (A ++ B) = A' ++ a :: b :: B' → ∃ a b, idx (wrap (A ++ m :: B)) (A.length + 1 - 1) = .ok a ∧
    idx (wrap (A ++ m :: B)) (A.length + 1) = .ok m ∧ idx (wrap (A ++ m :: B)) (A.length + 1 + 1) = .ok b ∧
    D a b - D a m - D m b = cost D (wrap (A ++ B)) - cost D (wrap (A ++ m :: B)) := by
    intro A' a b B' h1 h2 h3
    refine ⟨a, b, ?_, ?_, ?_, ?_⟩
    · rw [h1, ← h2]; simp [idx]
    · rw [h1, ← h2]; simp [idx]
    · rw [h1, ← h2]; simp [idx, Nat.add_assoc]
    · rw [h1, h3, cost_append_cons, cost_append_cons D A' a (m :: b :: B')]
      simp only [cost_cons_cons]
      ring
  have hA : ∃ A' a, 0 :: A = A' ++ [a] ∧ A'.length = A.length := by
    refine ⟨(0 :: A).dropLast, (0 :: A).getLast (by simp), (List.dropLast_append_getLast _).symm, by simp⟩
  have hB : ∃ b B', B ++ [0] = b :: B' := by
    cases B with
    | nil => exact ⟨0, [], rfl⟩
    | cons b B => exact ⟨b, B ++ [0], rfl⟩
  obtain ⟨A', a, ha, hl⟩ := hA
  obtain ⟨b, B', hb⟩ := hB
  refine key A' a b B' ?_ hl ?_
  · have : wrap (A ++ m :: B) = (0 :: A) ++ m :: (B ++ [0]) := by simp [wrap]
    rw [this, ha, hb]
    simp
  · have : wrap (A ++ B) = (0 :: A) ++ (B ++ [0]) := by simp [wrap]
    rw [this, ha, hb]
    simp

theorem rxNodes_spec (h : RxHyp N D d C L us) (dm : Option ℤ) {i : ℕ} {u : List ℕ} (hi : us[i]? = some u)
    {fuel : ℕ} (hf : ∀ u ∈ us, 2 ^ u.length ≤ fuel) : ∀ l : List ℕ, (∀ k ∈ l, 1 ≤ k ∧ k ≤ u.length) →
    ∃ gs : List (List RouteData), RxParts D d C L dm us (rxNodes fuel dm D d C L (us.map (rdOf D d)) (rdOf D d u) i l) gs ∧
      ∀ A m B, u = A ++ m :: B → A.length + 1 ∈ l → ∀ (j : ℕ) (P Q : List ℕ), us[j]? = some (P ++ Q) → j ≠ i →
        GoodMove D d C L A m B P Q → [rdOf D d (A ++ B), rdOf D d (P ++ m :: Q)] ∈ gs
  | [], _ => ⟨[], ⟨rfl, by simp⟩, by simp⟩
  | k :: l, hl => by
    obtain ⟨gs, ⟨g1, g2⟩, g3⟩ := rxNodes_spec h dm hi hf l fun c hc => hl c (List.mem_cons_of_mem _ hc)
    obtain ⟨hk1, hk2⟩ := hl k (List.mem_cons_self ..)
    obtain ⟨k, rfl⟩ := Nat.exists_eq_add_of_le' hk1
    have hsplit : ∃ A m B, u = A ++ m :: B ∧ A.length = k := by
      refine ⟨u.take k, u[k], u.drop (k + 1), ?_, by simp; omega⟩
      rw [← List.drop_eq_getElem_cons, List.take_append_drop]
    obtain ⟨A, m, B, rfl, rfl⟩ := hsplit
    obtain ⟨a, b, x1, x2, x3, x4⟩ := wrap_nbrs D A m B
    unfold rxNodes
    rw [rdOf_route, x1, x2, x3]
    simp only
    rw [x4]
    have hz : (us.map (rdOf D d)).zipIdx = us.zipIdx.map fun c => (rdOf D d c.1, c.2) := by
      rw [List.zipIdx_map]
      rfl
    obtain ⟨gs', ⟨k1, k2⟩, k3⟩ := rxRoutes_spec h dm hi hf us.zipIdx fun c hc => by
      obtain ⟨c1, c2⟩ := c
      exact List.mk_mem_zipIdx_iff_getElem?.1 hc
    rw [hz, k1]
    simp only
    rw [g1]
    refine ⟨gs' ++ gs, ⟨by simp, ?_⟩, ?_⟩
    · intro g hg
      rcases List.mem_append.1 hg with hg | hg
      · exact k2 g hg
      · exact g2 g hg
    · intro A₂ m₂ B₂ he hmem j P Q hj hji hgood
      rcases List.mem_cons.1 hmem with hm | hm
      · have hlen : A₂.length = A.length := by omega
        obtain ⟨rfl, h2⟩ := List.append_inj he hlen.symm
        injection h2 with h3 h4
        subst h3
        subst h4
        refine List.mem_append_left _ (k3 (P ++ Q, j) (List.mk_mem_zipIdx_iff_getElem?.2 hj) hji P Q rfl ?_ ?_ ?_)
        · exact hgood.1
        · exact hgood.2.1
        · exact hgood.2.2
      · exact List.mem_append_right _ (g3 A₂ m₂ B₂ he hm j P Q hj hji hgood)

theorem rxLoop_spec (h : RxHyp N D d C L us) (dm : Option ℤ) {fuel : ℕ} (hf : ∀ u ∈ us, 2 ^ u.length ≤ fuel) :
    ∀ l : List (List ℕ × ℕ), (∀ c ∈ l, us[c.2]? = some c.1) →
    ∃ gs : List (List RouteData), RxParts D d C L dm us (rxLoop fuel dm D d C L (us.map (rdOf D d))
      (l.map fun c => (rdOf D d c.1, c.2))) gs ∧
      ∀ (i : ℕ) (A : List ℕ) (m : ℕ) (B : List ℕ), (A ++ m :: B, i) ∈ l → ∀ (j : ℕ) (P Q : List ℕ),
        us[j]? = some (P ++ Q) → j ≠ i → GoodMove D d C L A m B P Q →
        [rdOf D d (A ++ B), rdOf D d (P ++ m :: Q)] ∈ gs
  | [], _ => ⟨[], ⟨rfl, by simp⟩, by simp⟩
  | (u, i) :: l, hl => by
    obtain ⟨gs, ⟨g1, g2⟩, g3⟩ := rxLoop_spec h dm hf l fun c hc => hl c (List.mem_cons_of_mem _ hc)
    have hi : us[i]? = some u := hl (u, i) (List.mem_cons_self ..)
    have hlen : (rdOf D d u).route.length - 2 = u.length := by simp [rdOf_route, wrap]
    obtain ⟨gs', ⟨k1, k2⟩, k3⟩ := rxNodes_spec h dm hi hf (List.range' 1 ((rdOf D d u).route.length - 2)) (by
      intro k hk
      rw [hlen, List.mem_range'_1] at hk
      omega)
    rw [List.map_cons]
    unfold rxLoop
    rw [k1]
    simp only
    rw [g1]
    refine ⟨gs' ++ gs, ⟨by simp, ?_⟩, ?_⟩
    · intro g hg
      rcases List.mem_append.1 hg with hg | hg
      · exact k2 g hg
      · exact g2 g hg
    · intro i' A m B hmem j P Q hj hji hgood
      rcases List.mem_cons.1 hmem with hm | hm
      · injection hm with h1 h2
        subst h2
        refine List.mem_append_left _ (k3 A m B h1.symm ?_ j P Q hj hji hgood)
        rw [hlen, List.mem_range'_1, ← h1]
        simp
        omega
      · exact List.mem_append_right _ (g3 i' A m B hm j P Q hj hji hgood)

theorem relaxation_spec (h : RxHyp N D d C L us) (dm : Option ℤ) {fuel : ℕ} (hf : ∀ u ∈ us, 2 ^ u.length ≤ fuel) :
    ∃ gs : List (List RouteData), RxParts D d C L dm us
      (generate_relaxation_petals fuel (us.map wrap) dm D C d L) gs ∧
      ∀ (i j : ℕ) (A : List ℕ) (m : ℕ) (B P Q : List ℕ), us[i]? = some (A ++ m :: B) → us[j]? = some (P ++ Q) →
        i ≠ j → GoodMove D d C L A m B P Q → [rdOf D d (A ++ B), rdOf D d (P ++ m :: Q)] ∈ gs := by
  have hr : from_routes (us.map wrap) D (some d) = us.map (rdOf D d) := by
    unfold from_routes
    rw [List.map_map]
    rfl
  have hz : (us.map (rdOf D d)).zipIdx = us.zipIdx.map fun c => (rdOf D d c.1, c.2) := by
    rw [List.zipIdx_map]
    rfl
  obtain ⟨gs, g1, g2⟩ := rxLoop_spec h dm hf us.zipIdx fun c hc => by
    obtain ⟨c1, c2⟩ := c
    exact List.mk_mem_zipIdx_iff_getElem?.1 hc
  refine ⟨gs, ?_, ?_⟩
  · unfold generate_relaxation_petals
    simp only
    rw [hr, hz]
    exact g1
  · intro i j A m B P Q hi hj hij hg
    exact g2 i A m B (List.mk_mem_zipIdx_iff_getElem?.2 hi) j P Q hj (Ne.symm hij) hg

end Verif
