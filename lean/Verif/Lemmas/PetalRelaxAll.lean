import Verif.Lemmas.PetalRelaxSearch
import Mathlib.Logic.Relation

/-! # Lemmas on the relaxed petals: the search leaves out nothing -/

namespace Verif
open Spec

variable {P Q : List ℕ} {N : ℕ} {D : ℕ → ℕ → ℚ} {d : ℕ → ℚ} {C L : Option ℚ} {us : List (List ℕ)} {A B w : List ℕ}
  {m : ℕ} {ss kept : List (List ℕ)}

theorem rxSearch_prefix (a : RxArgs) : ∀ (fuel : ℕ) (stack : List RxEntry) (acc r : List RouteData),
    rxSearch a fuel stack acc = .ok (some r) → acc <+: r
  | fuel, [], acc, r, h => by
    simp only [rxSearch] at h
    injection h with h
    injection h with h
    rw [h]
  | 0, e :: stack, acc, r, h => by
    simp [rxSearch] at h
  | fuel + 1, e :: stack, acc, r, h => by
    unfold rxSearch at h
    cases hv : rxVisit a e with
    | error x => rw [hv] at h; simp at h
    | ok p =>
      obtain ⟨rds, es⟩ := p
      rw [hv] at h
      exact (List.prefix_append acc rds).trans (rxSearch_prefix a fuel _ _ r h)

/-- An entry that is pushed by a visit of another. -/
def RxPush (a : RxArgs) (e e' : RxEntry) : Prop := ∃ rds es, rxVisit a e = .ok (rds, es) ∧ e' ∈ es

theorem rxSearch_all (a : RxArgs) : ∀ (fuel : ℕ) (stack : List RxEntry) (acc r : List RouteData),
    rxSearch a fuel stack acc = .ok (some r) → ∀ e ∈ stack, ∀ e', Relation.ReflTransGen (RxPush a) e e' →
      ∃ rds es, rxVisit a e' = .ok (rds, es) ∧ rds <:+: r
  | fuel, [], acc, r, h => by simp
  | 0, e :: stack, acc, r, h => by
    simp [rxSearch] at h
  | fuel + 1, e :: stack, acc, r, h => by
    unfold rxSearch at h
    cases hv : rxVisit a e with
    | error x => rw [hv] at h; simp at h
    | ok p =>
      obtain ⟨rds, es⟩ := p
      rw [hv] at h
      simp only at h
      have ih := rxSearch_all a fuel _ _ r h
      intro e₁ he₁ e' hp
      rcases List.mem_cons.1 he₁ with rfl | he₁
      · rcases Relation.ReflTransGen.cases_head hp with rfl | ⟨e₂, ⟨rds₂, es₂, h1, h2⟩, h3⟩
        · refine ⟨rds, es, hv, ?_⟩
          have := rxSearch_prefix a fuel _ _ r h
          exact (List.suffix_append acc rds).isInfix.trans this.isInfix
        · rw [hv] at h1
          injection h1 with h1
          injection h1 with h1 h1'
          subst h1'
          exact ih e₂ (List.mem_append_left _ h2) e' h3
      · exact ih e₁ (List.mem_append_right _ he₁) e' hp

theorem excess_iff {lim : Option ℚ} {eps x y : ℚ} (he : 0 < eps) (hxy : y ≤ x) :
    (!truthy (rxExc lim eps x) || decide ((rxExc lim eps x).getD 0 ≤ x - y + eps)) = true ↔ Within lim eps y := by
  refine ⟨excess_within he hxy, fun h => ?_⟩
  unfold rxExc
  by_cases c : exceeds lim eps x = true
  · rw [if_pos c]
    have hex : ¬ Within lim eps x := by
      rw [← exceeds_iff]
      simp [c]
    have : ∃ cc, lim = some cc ∧ cc ≠ 0 := by
      by_contra hn
      apply hex
      intro cc hc h0
      exact absurd ⟨cc, hc, h0⟩ hn
    obtain ⟨cc, rfl, h0⟩ := this
    have := h cc rfl h0
    simp only [Option.getD_some, Bool.or_eq_true, decide_eq_true_eq]
    right
    linarith
  · rw [if_neg c]
    rfl

/-- A visit: when enough is removed, and when not. -/
theorem rxVisit_cases (h : RxCtx N D d C L us A m B (P ++ Q) ss kept) (dm : Option ℤ) {e : RxEntry}
    (hs : e.ns.Sublist (P ++ Q)) (hd : e.dem = demand d e.ns) {v : List ℕ} (hv : Swapped D m (P ++ Q) e.ns v) :
    (¬ RouteOk D d C L v → MayDiscard dm (e.ns.length + 1) →
      rxVisit (rxA D d C L dm A m B P Q ss) e = .ok ([], rxBranch (rxA D d C L dm A m B P Q ss) e)) ∧
    (RouteOk D d C L v → ∀ b : ℚ,
      b = visitCost D m (A ++ m :: B) - visitCost D m v → 0 ≤ b + S_EPS →
      ∀ rd rds x, do_redistribute_move (rdOf D d e.ns) ((ss ++ [A ++ B, []]).map (rdOf D d)) D (some d) C L
        .BEST_ACCEPT (some b) 0 = .ok (some (rd :: rds, x)) →
      rxVisit (rxA D d C L dm A m B P Q ss) e = .ok (rdOf D d v :: rds, [])) := by
  obtain ⟨k1, k2, k3, k4, k5, k6, k7⟩ := h.nodup
  have hn0 : 0 ∉ e.ns := fun hh => k5 (hs.subset hh)
  obtain ⟨P₂, Q₂, v1, rfl, v3⟩ := hv
  set w' := (P ++ Q).filter fun n => decide (n ∉ e.ns) with hw'
  have hperm := perm_filter_not_mem k2 hs
  rw [← hw'] at hperm
  obtain ⟨P', Q', j, e1, e2, e3, e4⟩ := rxScan_wrap D m w'
  obtain ⟨rfl, rfl⟩ := cheapest_unique e4 v3 (by rw [v1, e1])
  have hwsub : w'.Sublist (P ++ Q) := List.filter_sublist
  have hcnew : cost D (wrap (P₂ ++ m :: Q₂)) ≤ cost D (wrap (P ++ m :: Q)) := by
    have hsp : w' = (P.filter fun n => decide (n ∉ e.ns)) ++ (Q.filter fun n => decide (n ∉ e.ns)) := by
      rw [hw', List.filter_append]
    have := (e4 (P.filter fun n => decide (n ∉ e.ns)) (Q.filter fun n => decide (n ∉ e.ns))
      (by rw [← e1, hsp])).1
    refine this.trans (cost_more_stops h.tri ?_ 0 0)
    exact List.Sublist.append List.filter_sublist (List.Sublist.cons_cons _ List.filter_sublist)
  have hdem : demand d (P ++ Q) = demand d w' + demand d e.ns := by
    rw [demand_perm d hperm, demand_append]
  have hdnew : demand d (P₂ ++ m :: Q₂) = demand d w' + d m := by
    rw [e1]
    simp
    ring
  have hen : rxEnough (rxExc C C_EPS (demand d (P ++ Q) + d m)) (rxExc L S_EPS (cost D (wrap (P ++ m :: Q)))) e.dem
      (cost D (wrap (P ++ Q)) + (cost D (wrap (P ++ m :: Q)) - cost D (wrap (P ++ Q))) -
        (cost D (wrap w') + (cost D (wrap (P₂ ++ m :: Q₂)) - cost D (wrap w')))) = true ↔
      RouteOk D d C L (P₂ ++ m :: Q₂) := by
    unfold rxEnough RouteOk
    rw [Bool.and_eq_true, show cost D (wrap (P ++ Q)) + (cost D (wrap (P ++ m :: Q)) - cost D (wrap (P ++ Q))) -
        (cost D (wrap w') + (cost D (wrap (P₂ ++ m :: Q₂)) - cost D (wrap w'))) =
        cost D (wrap (P ++ m :: Q)) - cost D (wrap (P₂ ++ m :: Q₂)) by ring,
      excess_iff (by unfold S_EPS; norm_num) hcnew,
      show e.dem = demand d (P ++ Q) + d m - demand d (P₂ ++ m :: Q₂) by rw [hdnew, hdem, hd]; ring,
      excess_iff (by unfold C_EPS; norm_num) (by
        rw [hdnew, hdem]
        have := demand_nonneg h.nn e.ns
        linarith)]
  constructor
  · intro hno hmay
    unfold rxVisit
    simp only [rxA]
    rw [filter_wrap hn0, ← hw', e2]
    simp only
    rw [if_neg (fun hh => hno (hen.1 hh))]
    cases dm with
    | none => rfl
    | some k =>
      simp only
      rw [if_pos]
      by_cases hk : k = 0
      · exact Or.inl hk
      · have := hmay k rfl hk
        right
        push_cast at this
        omega
  · intro hok b hb hb0 rd rds x hr
    unfold rxVisit
    simp only [rxA]
    rw [filter_wrap hn0, ← hw', e2]
    simp only
    rw [if_pos (hen.2 hok)]
    have hmP : m ∉ P₂ := fun hh => k4 (hwsub.subset (by rw [e1]; simp [hh]))
    have hb' : -(cost D (wrap (A ++ B)) - cost D (wrap (A ++ m :: B)) +
        (cost D (wrap (P₂ ++ m :: Q₂)) - cost D (wrap w'))) = b := by
      rw [hb]
      unfold visitCost
      rw [erase_mid hmP, erase_mid k3, ← e1]
      ring
    rw [hb', if_neg (by linarith)]
    change (match do_redistribute_move (rdOf D d e.ns) _ _ _ _ _ _ _ _ with
      | .error x => _
      | .ok none => _
      | .ok (some (rds, _)) => _) = _
    rw [hr]
    simp only [List.tail_cons]
    rw [e3, eq_rdOf h.d0 (u := P₂ ++ m :: Q₂) (by ring) (by rw [hdnew, hd, hdem]; ring)]

theorem swapped_exists (D : ℕ → ℕ → ℚ) (m : ℕ) (w ns : List ℕ) : ∃ v, Swapped D m w ns v := by
  obtain ⟨P', Q', j, e1, e2, e3, e4⟩ := rxScan_wrap D m (w.filter fun n => decide (n ∉ ns))
  exact ⟨_, P', Q', e1.symm, rfl, e4⟩

/-- The stack at the start. -/
def rxStart (d : ℕ → ℚ) (w : List ℕ) : List RxEntry :=
  (w.zipIdx.map fun c => ({ last := c.2 + 1, ns := [c.1], dem := d c.1 } : RxEntry)).reverse

theorem cons_sublist_split {n : ℕ} {rest t : List ℕ} (h : (n :: rest).Sublist t) :
    ∃ X Y, t = X ++ n :: Y ∧ rest.Sublist Y := by
  rw [List.cons_sublist_iff] at h
  obtain ⟨r1, r2, rfl, h1, h2⟩ := h
  obtain ⟨X, Z, rfl⟩ := List.append_of_mem h1
  exact ⟨X, Z ++ r2, by simp, h2.trans (List.sublist_append_right ..)⟩

theorem drop_mid (X : List ℕ) (n : ℕ) (Y : List ℕ) : (X ++ n :: Y).drop (X.length + 1) = Y := by
  rw [← List.drop_drop, List.drop_left]
  rfl

/-- Sets of customers are reached if the smaller ones before them are not enough. -/
theorem rx_reach (h : RxCtx N D d C L us A m B (P ++ Q) ss kept) (dm : Option ℤ) : ∀ (k : ℕ) (ns rest : List ℕ),
    ns.length = k + 1 → (ns ++ rest).Sublist (P ++ Q) → MayDiscard dm ns.length →
    (∀ ns', ns' <+: ns → ns' ≠ [] → ns' ≠ ns → ∀ v, Swapped D m (P ++ Q) ns' v → ¬ RouteOk D d C L v) →
    ∃ e₀ ∈ rxStart d (P ++ Q), ∃ e, Relation.ReflTransGen (RxPush (rxA D d C L dm A m B P Q ss)) e₀ e ∧ e.ns = ns ∧
      RxOk d (P ++ Q) e ∧ rest.Sublist ((P ++ Q).drop e.last)
  | 0, ns, rest, hk, hs, _, _ => by
    match ns, hk with
    | [n], _ =>
      obtain ⟨X, Y, e1, e2⟩ := cons_sublist_split hs
      refine ⟨⟨X.length + 1, [n], d n⟩, ?_, _, Relation.ReflTransGen.refl, rfl, ⟨?_, ?_, ?_⟩, ?_⟩
      · rw [rxStart, List.mem_reverse, List.mem_map]
        refine ⟨(n, X.length), ?_, rfl⟩
        rw [List.mk_mem_zipIdx_iff_getElem?, e1]
        simp
      · rw [e1]; simp
      · rw [e1, List.take_append]; simp
      · simp
      · rw [e1, drop_mid]; exact e2
  | k + 1, ns, rest, hk, hs, hmay, hno => by
    have hne : ns ≠ [] := by
      rintro rfl
      simp at hk
    obtain ⟨ns₁, n, rfl⟩ : ∃ ns₁ n, ns = ns₁ ++ [n] := ⟨ns.dropLast, ns.getLast hne, (List.dropLast_append_getLast hne).symm⟩
    simp only [List.length_append, List.length_cons, List.length_nil] at hk
    have hne₁ : ns₁ ≠ [] := by
      rintro rfl
      simp at hk
    obtain ⟨e₀, he₀, e, p1, p2, p3, p4⟩ := rx_reach h dm k ns₁ (n :: rest) (by omega) (by simpa using hs) (by
      intro kk hkk h0
      have := hmay kk hkk h0
      simp only [List.length_append, List.length_cons, List.length_nil] at this
      push_cast at this
      omega) (by
      intro ns' h1 h2 h3 v hv
      refine hno ns' (h1.trans (List.prefix_append _ _)) h2 ?_ v hv
      rintro rfl
      have := h1.length_le
      simp at this)
    obtain ⟨v, hv⟩ := swapped_exists D m (P ++ Q) ns₁
    have hbad := hno ns₁ (List.prefix_append _ _) hne₁ (by simp) v hv
    have hvis := (rxVisit_cases h dm (e := e) (p3.2.1.trans (List.take_sublist ..)) p3.2.2 (by rw [p2]; exact hv)).1
      hbad (by rw [p2]; simpa using hmay)
    obtain ⟨X, Y, e1, e2⟩ := cons_sublist_split p4
    have hmem : (⟨e.last + 1 + X.length, e.ns ++ [n], e.dem + d n⟩ : RxEntry) ∈ rxBranch (rxA D d C L dm A m B P Q ss) e := by
      unfold rxBranch
      simp only
      rw [slice_wrap, List.mem_reverse, List.mem_map]
      refine ⟨(n, X.length), ?_, rfl⟩
      rw [List.mk_mem_zipIdx_iff_getElem?, e1]
      simp
    refine ⟨e₀, he₀, _, p1.tail ⟨_, _, hvis, hmem⟩, by simp [p2], ?_, ?_⟩
    · exact (rxBranch_spec dm p3).1 _ hmem
    · simp only
      rw [show e.last + 1 + X.length = e.last + (X.length + 1) by omega, ← List.drop_drop, e1, drop_mid]
      exact e2

/-! ## The loops -/

theorem rxRoutes_infix {fuel : ℕ} {dm : Option ℤ} {rdsAll : List RouteData} {rd1 : RouteData} {ri1 i to_move : ℕ}
    {r1_delta : ℚ} : ∀ {l : List (RouteData × ℕ)} {r : List RouteData},
    rxRoutes fuel dm D d C L rdsAll rd1 ri1 i to_move r1_delta l = .ok (some r) → ∀ c ∈ l, ri1 ≠ c.2 →
    ∃ r', rxTry fuel dm D d C L rdsAll rd1 ri1 i to_move r1_delta c.1 c.2 = .ok (some r') ∧ r' <:+: r
  | [], r, _ => by simp
  | (rd2, ri2) :: l, r, h => by
    unfold rxRoutes at h
    generalize hx : (if ri1 = ri2 then Except.ok (some [])
      else rxTry fuel dm D d C L rdsAll rd1 ri1 i to_move r1_delta rd2 ri2 : Py (Option (List RouteData))) = x at h
    match x, h with
    | .ok (some rds), h =>
      simp only at h
      cases hy : rxRoutes fuel dm D d C L rdsAll rd1 ri1 i to_move r1_delta l with
      | error e => rw [hy] at h; simp at h
      | ok o =>
        cases o with
        | none => rw [hy] at h; simp at h
        | some rest =>
          rw [hy] at h
          simp only [Except.ok.injEq, Option.some.injEq] at h
          subst h
          intro c hc hne
          rcases List.mem_cons.1 hc with rfl | hc
          · rw [if_neg hne] at hx
            exact ⟨rds, hx, (List.prefix_append rds rest).isInfix⟩
          · obtain ⟨r', h1, h2⟩ := rxRoutes_infix hy c hc hne
            exact ⟨r', h1, h2.trans (List.suffix_append rds rest).isInfix⟩
    | .ok none, h => simp at h
    | .error e, h => simp at h

theorem rxNodes_infix {fuel : ℕ} {dm : Option ℤ} {rdsAll : List RouteData} {u : List ℕ} {ri1 : ℕ} :
    ∀ {l : List ℕ} {r : List RouteData}, rxNodes fuel dm D d C L rdsAll (rdOf D d u) ri1 l = .ok (some r) →
    ∀ A m B, u = A ++ m :: B → A.length + 1 ∈ l →
    ∃ r', rxRoutes fuel dm D d C L rdsAll (rdOf D d u) ri1 (A.length + 1) m
      (cost D (wrap (A ++ B)) - cost D (wrap (A ++ m :: B))) rdsAll.zipIdx = .ok (some r') ∧ r' <:+: r
  | [], r, _ => by simp
  | i :: l, r, h => by
    unfold rxNodes at h
    generalize hx1 : idx (rdOf D d u).route (i - 1) = x1 at h
    generalize hx2 : idx (rdOf D d u).route i = x2 at h
    generalize hx3 : idx (rdOf D d u).route (i + 1) = x3 at h
    match x1, x2, x3, h with
    | .ok ra, .ok tm, .ok rb, h =>
      simp only at h
      cases hy : rxRoutes fuel dm D d C L rdsAll (rdOf D d u) ri1 i tm (D ra rb - D ra tm - D tm rb) rdsAll.zipIdx with
      | error e => rw [hy] at h; simp at h
      | ok o =>
        cases o with
        | none => rw [hy] at h; simp at h
        | some rds =>
          rw [hy] at h
          simp only at h
          cases hz : rxNodes fuel dm D d C L rdsAll (rdOf D d u) ri1 l with
          | error e => rw [hz] at h; simp at h
          | ok o =>
            cases o with
            | none => rw [hz] at h; simp at h
            | some rest =>
              rw [hz] at h
              simp only [Except.ok.injEq, Option.some.injEq] at h
              subst h
              intro A m B hu hmem
              rcases List.mem_cons.1 hmem with hm | hm
              · subst hu
                subst hm
                obtain ⟨a, b, y1, y2, y3, y4⟩ := wrap_nbrs D A m B
                rw [rdOf_route] at hx1 hx2 hx3
                rw [y1] at hx1
                rw [y2] at hx2
                rw [y3] at hx3
                injection hx1 with hx1
                injection hx2 with hx2
                injection hx3 with hx3
                subst hx1
                subst hx2
                subst hx3
                rw [y4] at hy
                exact ⟨rds, hy, (List.prefix_append rds rest).isInfix⟩
              · obtain ⟨r', h1, h2⟩ := rxNodes_infix hz A m B hu hm
                exact ⟨r', h1, h2.trans (List.suffix_append rds rest).isInfix⟩
    | .error e, _, _, h => simp at h
    | .ok _, .error e, _, h => simp at h
    | .ok _, .ok _, .error e, h => simp at h

theorem rxLoop_infix {fuel : ℕ} {dm : Option ℤ} {rdsAll : List RouteData} :
    ∀ {l : List (RouteData × ℕ)} {r : List RouteData}, rxLoop fuel dm D d C L rdsAll l = .ok (some r) →
    ∀ c ∈ l, ∃ r', rxNodes fuel dm D d C L rdsAll c.1 c.2 (List.range' 1 (c.1.route.length - 2)) = .ok (some r') ∧ r' <:+: r
  | [], r, _ => by simp
  | (rd1, ri1) :: l, r, h => by
    unfold rxLoop at h
    cases hy : rxNodes fuel dm D d C L rdsAll rd1 ri1 (List.range' 1 (rd1.route.length - 2)) with
    | error e => rw [hy] at h; simp at h
    | ok o =>
      cases o with
      | none => rw [hy] at h; simp at h
      | some rds =>
        rw [hy] at h
        simp only at h
        cases hz : rxLoop fuel dm D d C L rdsAll l with
        | error e => rw [hz] at h; simp at h
        | ok o =>
          cases o with
          | none => rw [hz] at h; simp at h
          | some rest =>
            rw [hz] at h
            simp only [Except.ok.injEq, Option.some.injEq] at h
            subst h
            intro c hc
            rcases List.mem_cons.1 hc with rfl | hc
            · exact ⟨rds, hy, (List.prefix_append rds rest).isInfix⟩
            · obtain ⟨r', h1, h2⟩ := rxLoop_infix hz c hc
              exact ⟨r', h1, h2.trans (List.suffix_append rds rest).isInfix⟩

/-- What is tried for a customer and another route is in the result. -/
theorem relaxation_infix {fuel : ℕ} {dm : Option ℤ} {r : List RouteData}
    (hr : generate_relaxation_petals fuel (us.map wrap) dm D C d L = .ok (some r)) {i j : ℕ}
    (hi : us[i]? = some (A ++ m :: B)) (hj : us[j]? = some w) (hij : i ≠ j) :
    ∃ r', rxTry fuel dm D d C L (us.map (rdOf D d)) (rdOf D d (A ++ m :: B)) i (A.length + 1) m
      (cost D (wrap (A ++ B)) - cost D (wrap (A ++ m :: B))) (rdOf D d w) j = .ok (some r') ∧ r' <:+: r := by
  have hfr : from_routes (us.map wrap) D (some d) = us.map (rdOf D d) := by
    unfold from_routes
    rw [List.map_map]
    rfl
  unfold generate_relaxation_petals at hr
  simp only at hr
  rw [hfr] at hr
  have hmem : ∀ (k : ℕ) (u : List ℕ), us[k]? = some u → (rdOf D d u, k) ∈ (us.map (rdOf D d)).zipIdx := by
    intro k u hk
    rw [List.mk_mem_zipIdx_iff_getElem?, List.getElem?_map, hk]
    rfl
  obtain ⟨r1, h1, h1'⟩ := rxLoop_infix hr _ (hmem i _ hi)
  obtain ⟨r2, h2, h2'⟩ := rxNodes_infix h1 A m B rfl (by
    rw [rdOf_route, List.mem_range'_1]
    simp [wrap]
    omega)
  obtain ⟨r3, h3, h3'⟩ := rxRoutes_infix h2 _ (hmem j _ hj) hij
  exact ⟨r3, h3, h3'.trans (h2'.trans h1')⟩

/-- Customers that are discarded one after the other until a customer fits in. -/
theorem discard_found (h : RxHyp N D d C L us) {fuel : ℕ} {dm : Option ℤ}
    {r : List RouteData} (hr : generate_relaxation_petals fuel (us.map wrap) dm D C d L = .ok (some r)) {i j : ℕ}
    (hi : us[i]? = some (A ++ m :: B)) (hj : us[j]? = some w) (hij : i ≠ j) {v₀ : List ℕ}
    (hv₀ : Swapped D m w [] v₀) (hgain : visitCost D m v₀ + S_EPS < visitCost D m (A ++ m :: B))
    {ns v : List ℕ} (hne : ns ≠ []) (hns : ns.Sublist w) (hmay : MayDiscard dm ns.length)
    (hfew : ∀ ns', ns' <+: ns → ns' ≠ ns → ∀ v', Swapped D m w ns' v' → ¬ RouteOk D d C L v')
    (hv : Swapped D m w ns v) (hok : RouteOk D d C L v) {b : ℚ} (hb : b = visitCost D m (A ++ m :: B) - visitCost D m v)
    (hb0 : 0 ≤ b + S_EPS) {rd : RouteData} {rds : List RouteData} {x : ℚ}
    (hmove : do_redistribute_move (rdOf D d ns) (((others us i j).filter (roomFor C d w) ++ [A ++ B, []]).map (rdOf D d))
      D (some d) C L .BEST_ACCEPT (some b) 0 = .ok (some (rd :: rds, x))) :
    (rdOf D d v :: rds) <:+: r := by
  obtain ⟨r', t1, t2⟩ := relaxation_infix hr hi hj hij
  refine List.IsInfix.trans ?_ t2
  have hctx := rx_ctx h hi hj hij
  obtain ⟨n1, n2, n3, n4, n5, n6, n7⟩ := hctx.nodup
  obtain ⟨P, Q, v1, rfl, v3⟩ := hv₀
  have hw : P ++ Q = w := by
    rw [v1]
    exact List.filter_eq_self.2 fun y _ => by simp
  subst hw
  have hno : ¬ RouteOk D d C L (P ++ m :: Q) :=
    hfew [] List.nil_prefix (Ne.symm hne) _ ⟨P, Q, v1, rfl, v3⟩
  obtain ⟨P₁, Q₁, bj, e1, e2, e3, e4⟩ := rxScan_wrap D m (P ++ Q)
  obtain ⟨rfl, rfl⟩ := cheapest_unique e4 v3 e1
  have hmP : m ∉ P := fun hh => n4 (by simp [hh])
  unfold visitCost at hgain
  rw [erase_mid hmP, erase_mid n3] at hgain
  unfold rxTry at t1
  rw [rdOf_route, rdOf_route, rdOf_cost, rdOf_cost, rdOf_demand D h.d0, rdOf_demand D h.d0, e2] at t1
  simp only [num] at t1
  rw [if_pos (by linarith)] at t1
  have q1 : (wrap (A ++ m :: B)).take (A.length + 1) ++ (wrap (A ++ m :: B)).drop (A.length + 1 + 1) =
      wrap (A ++ B) := by
    simp [wrap]
  simp only [rx_ok_bind] at t1
  rw [q1, e3] at t1
  rw [eq_rdOf (D := D) h.d0 (u := A ++ B) (by ring) (show demand d (A ++ m :: B) - d m = demand d (A ++ B) by
    simp; ring)] at t1
  rw [eq_rdOf (D := D) h.d0 (u := P ++ m :: Q) (by ring)
    (show demand d (P ++ Q) + d m = demand d (P ++ m :: Q) by simp; ring)] at t1
  rw [show cost D (wrap (P ++ Q)) + (cost D (wrap (P ++ m :: Q)) - cost D (wrap (P ++ Q))) =
    cost D (wrap (P ++ m :: Q)) by ring] at t1
  change (if (truthy (rxExc C C_EPS (demand d (P ++ Q) + d m)) ||
      truthy (rxExc L S_EPS (cost D (wrap (P ++ m :: Q))))) = true then
      regain_feasibility fuel m (cost D (wrap (A ++ B)) - cost D (wrap (A ++ m :: B)))
        (cost D (wrap (P ++ m :: Q)) - cost D (wrap (P ++ Q))) (rdOf D d (A ++ B)) i j dm
        (rxExc C C_EPS (demand d (P ++ Q) + d m)) (rxExc L S_EPS (cost D (wrap (P ++ m :: Q))))
        (us.map (rdOf D d)) D d C L
      else .ok (some [rdOf D d (A ++ B), rdOf D d (P ++ m :: Q)])) = .ok (some r') at t1
  have hcx : (truthy (rxExc C C_EPS (demand d (P ++ Q) + d m)) ||
      truthy (rxExc L S_EPS (cost D (wrap (P ++ m :: Q))))) = true := by
    by_contra cx
    apply hno
    have k : ∀ lim eps x, 0 < eps → truthy (rxExc lim eps x) = false → Within lim eps x := by
      intro lim eps x he hx
      refine excess_within he (le_refl x) ?_
      rw [hx]
      rfl
    simp only [Bool.or_eq_true, not_or, Bool.not_eq_true] at cx
    refine ⟨?_, k _ _ _ (by unfold S_EPS; norm_num) cx.2⟩
    have := k _ _ _ (by unfold C_EPS; norm_num) cx.1
    rwa [show demand d (P ++ Q) + d m = demand d (P ++ m :: Q) by simp; ring] at this
  rw [if_pos hcx] at t1
  unfold regain_feasibility at t1
  have hidx : idx (us.map (rdOf D d)) j = .ok (rdOf D d (P ++ Q)) := by
    simp [idx, hj]
  simp only [hidx, rx_ok_bind, rdOf_demand D h.d0, num, rdOf_route, slice_wrap1] at t1
  cases hm : ((P ++ Q).map d).min? with
  | none => rw [hm] at t1; simp at t1
  | some y =>
    rw [hm] at t1
    simp only at t1
    have hz : (us.map (rdOf D d)).zipIdx = us.zipIdx.map fun c => (rdOf D d c.1, c.2) := by
      rw [List.zipIdx_map]
      rfl
    rw [hz, rxSlack_spec h.d0 hm i j us.zipIdx] at t1
    simp only [rx_ok_bind, rdOf_cost] at t1
    change rxSearch _ _ (rxStart d (P ++ Q)) [] = _ at t1
    have hsl : ((others us i j).filter (roomFor C d (P ++ Q))).map (rdOf D d) ++ [rdOf D d (A ++ B), RouteData.new] =
        ((others us i j).filter (roomFor C d (P ++ Q)) ++ [A ++ B, []]).map (rdOf D d) := by
      have : RouteData.new = rdOf D d [] := eq_rdOf (u := []) h.d0 (by simp [wrap, h.D0]) (by simp)
      rw [this]
      simp
    unfold others at hsl
    rw [hsl] at t1
    obtain ⟨e₀, f1, e, f2, f3, f4, -⟩ := rx_reach hctx dm (ns.length - 1) ns [] (by
        have := List.length_pos_of_ne_nil hne
        omega) (by simpa using hns) hmay (fun ns' g1 _ g3 => hfew ns' g1 g3)
    obtain ⟨rds', es', g1, g2⟩ := rxSearch_all _ fuel _ _ r' t1 e₀ f1 e f2
    have hvis := (rxVisit_cases hctx dm (e := e) (f4.2.1.trans (List.take_sublist ..)) f4.2.2 (by rw [f3]; exact hv)).2
      hok b hb hb0 rd rds x (by rw [f3]; exact hmove)
    have hgv : rxVisit (rxA D d C L dm A m B P Q ((others us i j).filter (roomFor C d (P ++ Q)))) e = .ok (rds', es') := g1
    rw [hvis] at hgv
    injection hgv with hgv
    injection hgv with hgv _
    rw [hgv]
    exact g2

end Verif
