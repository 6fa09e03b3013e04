import Verif.Spec.PetalRelax
import Verif.Lemmas.PetalSol
import Verif.Lemmas.PetalMulti
import Verif.Props.InterRoute

/-! # Lemmas on the relaxed petals -/

namespace Verif
open Spec

/-! ## The best place -/

theorem insDelta_mid (D : ℕ → ℕ → ℚ) (m : ℕ) (pre : List ℕ) (a b : ℕ) (t : List ℕ) :
    insDelta D (pre ++ a :: b :: t) (pre.length + 1) m = D a m + D m b - D a b := by
  unfold insDelta nth
  simp

/-- The places before `k` were tried. -/
def RxBest (D : ℕ → ℕ → ℚ) (m : ℕ) (r : List ℕ) (k : ℕ) (best : Option (ℚ × ℕ)) : Prop :=
  (best = none → k = 1) ∧ ∀ bd bj, best = some (bd, bj) → 1 ≤ bj ∧ bj < k ∧ bd = insDelta D r bj m ∧
    ∀ j, 1 ≤ j → j < k → bd ≤ insDelta D r j m ∧ (j < bj → bd < insDelta D r j m)

theorem rxScan_spec (D : ℕ → ℕ → ℚ) (m : ℕ) (r : List ℕ) : ∀ (t pre : List ℕ) (a : ℕ) (l : ℚ)
    (best : Option (ℚ × ℕ)), r = pre ++ a :: t → RxBest D m r (pre.length + 1) best →
    ∃ best', rxScan D m (a :: t) (pre.length + 1) l best = (l + cost D (a :: t), best') ∧ RxBest D m r r.length best'
  | [], pre, a, l, best, hr, hb => by
    refine ⟨best, by simp [rxScan], ?_⟩
    have : r.length = pre.length + 1 := by simp [hr]
    rw [this]
    exact hb
  | b :: t, pre, a, l, best, hr, hb => by
    unfold rxScan
    simp only
    have hd := insDelta_mid D m pre a b t
    rw [← hr] at hd
    have hr' : r = (pre ++ [a]) ++ b :: t := by simp [hr]
    have hl : (pre ++ [a]).length = pre.length + 1 := by simp
    have hstep : ∀ best', RxBest D m r (pre.length + 1 + 1) best' →
        ∃ best'', rxScan D m (b :: t) (pre.length + 1 + 1) (l + D a b) best' =
          (l + cost D (a :: b :: t), best'') ∧ RxBest D m r r.length best'' := by
      intro best' hb'
      have := rxScan_spec D m r t (pre ++ [a]) b (l + D a b) best' hr' (by rw [hl]; exact hb')
      rw [hl] at this
      obtain ⟨x, h1, h2⟩ := this
      refine ⟨x, ?_, h2⟩
      rw [h1, cost_cons_cons]
      congr 1
      ring
    apply hstep
    cases best with
    | none =>
      refine ⟨by simp, ?_⟩
      intro bd bj h
      injection h with h
      injection h with h1 h2
      have hk := hb.1 rfl
      refine ⟨by omega, by omega, by rw [← h1, ← h2, hd], ?_⟩
      intro j hj1 hj2
      have : j = pre.length + 1 := by omega
      rw [this, hd, h1]
      exact ⟨le_refl _, by omega⟩
    | some p =>
      obtain ⟨bd0, bj0⟩ := p
      obtain ⟨e1, e2, e3, e4⟩ := hb.2 bd0 bj0 rfl
      simp only
      by_cases c : D a m + D m b - D a b < bd0
      · rw [if_pos c]
        refine ⟨by simp, ?_⟩
        intro bd bj h
        injection h with h
        injection h with h1 h2
        refine ⟨by omega, by omega, by rw [← h1, ← h2, hd], ?_⟩
        intro j hj1 hj2
        rcases Nat.lt_or_ge j (pre.length + 1) with hj | hj
        · have := (e4 j hj1 hj).1
          rw [← h1]
          exact ⟨by linarith, fun _ => by linarith⟩
        · have : j = pre.length + 1 := by omega
          rw [this, hd, h1]
          exact ⟨le_refl _, by omega⟩
      · rw [if_neg c]
        refine ⟨by simp, ?_⟩
        intro bd bj h
        injection h with h
        injection h with h1 h2
        subst h1
        subst h2
        refine ⟨e1, by omega, e3, ?_⟩
        intro j hj1 hj2
        rcases Nat.lt_or_ge j (pre.length + 1) with hj | hj
        · exact e4 j hj1 hj
        · have : j = pre.length + 1 := by omega
          rw [this, hd]
          exact ⟨by linarith, by omega⟩

theorem wrap_take (u : List ℕ) {k : ℕ} (h1 : 1 ≤ k) (h2 : k < (wrap u).length) (m : ℕ) :
    (wrap u).take k ++ [m] ++ (wrap u).drop k = wrap (u.take (k - 1) ++ m :: u.drop (k - 1)) := by
  obtain ⟨k, rfl⟩ := Nat.exists_eq_add_of_le h1
  have hk : k ≤ u.length := by simp [wrap] at h2; omega
  rw [Nat.add_comm 1 k]
  simp [wrap, List.take_append_of_le_length hk, List.drop_append_of_le_length hk]

/-- The scan of a route. -/
theorem rxScan_wrap (D : ℕ → ℕ → ℚ) (m : ℕ) (u : List ℕ) : ∃ P Q j, u = P ++ Q ∧
    rxScan D m (wrap u) 1 0 none = (cost D (wrap u), some (cost D (wrap (P ++ m :: Q)) - cost D (wrap u), j)) ∧
    (wrap u).take j ++ [m] ++ (wrap u).drop j = wrap (P ++ m :: Q) ∧ CheapestPlace D m P Q := by
  obtain ⟨best, h1, h2⟩ := rxScan_spec D m (wrap u) (u ++ [0]) [] 0 0 none rfl ⟨fun _ => rfl, by simp⟩
  have hlen : (wrap u).length = u.length + 2 := by simp [wrap]
  cases best with
  | none => have := h2.1 rfl; omega
  | some p =>
    obtain ⟨bd, j⟩ := p
    obtain ⟨e1, e2, e3, e4⟩ := h2.2 bd j rfl
    have hins : ∀ k, 1 ≤ k → k < (wrap u).length →
        insDelta D (wrap u) k m = cost D (wrap (u.take (k - 1) ++ m :: u.drop (k - 1))) - cost D (wrap u) := by
      intro k hk1 hk2
      rw [← wrap_take u hk1 hk2, cost_ins hk1 hk2]
      ring
    refine ⟨u.take (j - 1), u.drop (j - 1), j, (List.take_append_drop _ _).symm, ?_, wrap_take u e1 e2 m, ?_⟩
    · have : wrap u = 0 :: (u ++ [0]) := rfl
      rw [List.length_nil, Nat.zero_add] at h1
      rw [this, h1, e3, hins j e1 e2]
      simp [wrap]
    · intro P' Q' hPQ
      rw [List.take_append_drop] at hPQ
      have hP : u.take P'.length = P' := by rw [← hPQ]; simp
      have hQ : u.drop P'.length = Q' := by rw [← hPQ]; simp
      have hPl : P'.length ≤ u.length := by rw [← hPQ]; simp
      obtain ⟨f1, f2⟩ := e4 (P'.length + 1) (by omega) (by omega)
      rw [hins _ (by omega) (by omega), Nat.add_sub_cancel, hP, hQ] at f1 f2
      rw [e3, hins j e1 e2] at f1 f2
      refine ⟨by linarith, fun h => ?_⟩
      rw [List.length_take] at h
      have := f2 (by omega)
      linarith

/-! ## Redistribution among routes -/

theorem perm_filter_not_mem {w ns : List ℕ} (hw : w.Nodup) (hs : ns.Sublist w) :
    w.Perm ((w.filter fun n => decide (n ∉ ns)) ++ ns) := by
  rw [List.perm_ext_iff_of_nodup hw]
  · intro x
    simp only [List.mem_append, List.mem_filter, decide_eq_true_eq]
    constructor
    · intro h
      by_cases c : x ∈ ns
      · exact Or.inr c
      · exact Or.inl ⟨h, c⟩
    · rintro (h | h)
      · exact h.1
      · exact hs.subset h
  · refine List.Nodup.append (hw.filter _) (hs.nodup hw) ?_
    intro x hx hn
    simp only [List.mem_filter, decide_eq_true_eq] at hx
    exact hx.2 hn

theorem filter_wrap {w ns : List ℕ} (h0 : 0 ∉ ns) :
    ((wrap w).filter fun n => decide (n ∉ ns)) = wrap (w.filter fun n => decide (n ∉ ns)) := by
  simp [wrap, h0]

theorem depotEnds_wrap_ex {r : List ℕ} (h : DepotEnds r) (hl : 2 ≤ r.length) : ∃ v, r = wrap v := by
  obtain ⟨h1, h2⟩ := h
  match r, hl with
  | a :: b :: t, _ =>
    simp at h1
    subst h1
    refine ⟨(b :: t).dropLast, ?_⟩
    unfold wrap
    congr 1
    have hne : (b :: t) ≠ [] := by simp
    rw [List.getLast?_cons_cons, List.getLast?_eq_some_getLast hne] at h2
    injection h2 with h2
    conv_lhs => rw [← List.dropLast_append_getLast hne, h2]

theorem count_wraps (vs : List (List ℕ)) : (vs.map wrap).flatten.count 0 = 2 * vs.length + vs.flatten.count 0 := by
  induction vs with
  | nil => rfl
  | cons v vs ih =>
    simp only [List.map_cons, List.flatten_cons, List.count_append, List.length_cons, ih]
    simp [wrap]
    omega

theorem received_wraps {D : ℕ → ℕ → ℚ} {d : Option (ℕ → ℚ)} {C L : Option ℚ} {ns : List ℕ}
    {rds rds' : List RouteData} {x : ℚ} {ts : List (List ℕ)} (h : Received D d C L ns rds rds' x)
    (hr : rds.map (·.route) = ts.map wrap) (h0 : ∀ t ∈ ts, 0 ∉ t) (hn : 0 ∉ ns) :
    ∃ vs : List (List ℕ), rds'.map (·.route) = vs.map wrap ∧ (∀ v ∈ vs, 0 ∉ v) ∧ vs.flatten.Perm (ns ++ ts.flatten) := by
  obtain ⟨h1, h2, h3, -, -⟩ := h
  have hlen : rds'.length = ts.length := by
    rw [← h1.length_eq]
    have := congrArg List.length hr
    simpa using this
  have hw : ∀ rd' ∈ rds', ∃ v, rd'.route = wrap v := by
    intro rd' hrd'
    refine depotEnds_wrap_ex (h3 rd' hrd').1 ?_
    obtain ⟨i, hi, rfl⟩ := List.getElem_of_mem hrd'
    have hi' : i < rds.length := by rw [h1.length_eq]; exact hi
    have hs := (List.forall₂_iff_get.1 h1).2 i hi' hi
    refine le_trans ?_ hs.length_le
    have hm : rds[i].route ∈ ts.map wrap := by
      rw [← hr]
      exact List.mem_map_of_mem (f := (·.route)) (List.getElem_mem hi')
    obtain ⟨t, -, ht⟩ := List.mem_map.1 hm
    have : (rds.get ⟨i, hi'⟩).route = wrap t := ht.symm
    rw [this]
    simp [wrap]
  have hex : ∃ vs : List (List ℕ), rds'.map (·.route) = vs.map wrap := by
    clear h1 h2 h3 hlen hr
    induction rds' with
    | nil => exact ⟨[], rfl⟩
    | cons rd t ih =>
      obtain ⟨v, hv⟩ := hw rd (List.mem_cons_self ..)
      obtain ⟨vs, hvs⟩ := ih fun rd' h => hw rd' (List.mem_cons_of_mem _ h)
      exact ⟨v :: vs, by simp [hv, hvs]⟩
  obtain ⟨vs, hvs⟩ := hex
  have hl2 : vs.length = ts.length := by
    have := congrArg List.length hvs
    simp at this
    omega
  rw [hvs, hr] at h2
  have hz : ∀ v ∈ vs, 0 ∉ v := by
    have hc := h2.count_eq 0
    rw [count_wraps, List.count_append, count_wraps, List.count_eq_zero.2 hn, hl2] at hc
    have ht0 : ts.flatten.count 0 = 0 := by
      refine List.count_eq_zero.2 fun hm => ?_
      obtain ⟨t, ht, h⟩ := List.mem_flatten.1 hm
      exact h0 t ht h
    have : vs.flatten.count 0 = 0 := by omega
    intro v hv hv0
    exact List.count_eq_zero.1 this (List.mem_flatten.2 ⟨v, hv, hv0⟩)
  refine ⟨vs, hvs, hz, ?_⟩
  have := h2.filter (fun n => decide (n ≠ 0))
  rw [flatten_wraps hz, List.filter_append, flatten_wraps h0] at this
  rw [show ns.filter (fun n => decide (n ≠ 0)) = ns from List.filter_eq_self.2 fun y hy => by
    simp only [decide_eq_true_eq]
    rintro rfl
    exact hn hy] at this
  exact this

theorem total_wraps (D : ℕ → ℕ → ℚ) (vs : List (List ℕ)) : total D (vs.map wrap) = cost D (tour vs) := by
  rw [cost_tour_sum, total, List.map_map]
  rfl

theorem demand_wrap0 {d : ℕ → ℚ} (h0 : d 0 = 0) (u : List ℕ) : demand d (wrap u) = demand d u := by
  simp [wrap, h0]

theorem fitsAll_wraps {D : ℕ → ℕ → ℚ} {d : ℕ → ℚ} {C L : Option ℚ} (h0 : d 0 = 0) (vs : List (List ℕ)) :
    FitsAll D (some d) C L C_EPS S_EPS (vs.map wrap) ↔ ∀ v ∈ vs, RouteOk D d C L v := by
  unfold FitsAll RouteOk FitsC FitsL
  simp only [List.forall_mem_map]
  constructor
  · intro h v hv
    have := (h v hv).1 d rfl
    rw [demand_wrap0 h0] at this
    exact ⟨this, (h v hv).2⟩
  · intro h v hv
    refine ⟨fun f hf => ?_, (h v hv).2⟩
    injection hf with hf
    rw [← hf, demand_wrap0 h0]
    exact (h v hv).1

theorem erase_mid {A B : List ℕ} {m : ℕ} (h : m ∉ A) : (A ++ m :: B).erase m = A ++ B := by
  rw [List.erase_append_right _ h, List.erase_cons_head]

/-! ## One visit of the search -/

/-- The record of a route. -/
def rdOf (D : ℕ → ℕ → ℚ) (d : ℕ → ℚ) (u : List ℕ) : RouteData := .of_route D (some d) (wrap u)

theorem rdOf_route (D : ℕ → ℕ → ℚ) (d : ℕ → ℚ) (u : List ℕ) : (rdOf D d u).route = wrap u := rfl

theorem rdOf_cost (D : ℕ → ℕ → ℚ) (d : ℕ → ℚ) (u : List ℕ) : (rdOf D d u).cost = cost D (wrap u) :=
  objf_eq_cost _ _

theorem rdOf_demand (D : ℕ → ℕ → ℚ) {d : ℕ → ℚ} (h0 : d 0 = 0) (u : List ℕ) :
    (rdOf D d u).demand = some (demand d u) := by
  rw [← demand_wrap0 h0, demand_eq_sum]
  rfl

theorem rdOf_book (D : ℕ → ℕ → ℚ) {d : ℕ → ℚ} (C : Option ℚ) (u : List ℕ) : Book D (some d) C (rdOf D d u) :=
  ⟨rdOf_cost D d u, fun _ => ⟨d, rfl, by rw [demand_eq_sum]; rfl⟩⟩

theorem eq_rdOf {D : ℕ → ℕ → ℚ} {d : ℕ → ℚ} (h0 : d 0 = 0) {u : List ℕ} {c x : ℚ} (hc : c = cost D (wrap u))
    (hx : x = demand d u) : (⟨wrap u, c, some x⟩ : RouteData) = rdOf D d u := by
  have h1 := rdOf_cost D d u
  have h2 := rdOf_demand D h0 u
  cases h : rdOf D d u with
  | mk r c' x' =>
    have h3 := rdOf_route D d u
    rw [h] at h1 h2 h3
    simp only at h1 h2 h3
    rw [h1, h2, h3, hc, hx]

/-- The situation in which customers are discarded. -/
structure RxCtx (N : ℕ) (D : ℕ → ℕ → ℚ) (d : ℕ → ℚ) (C L : Option ℚ) (us : List (List ℕ)) (A : List ℕ) (m : ℕ)
    (B w : List ℕ) (ss kept : List (List ℕ)) : Prop where
  part : PartSol N D d C L us
  nn : ∀ n, 0 ≤ d n
  d0 : d 0 = 0
  D0 : D 0 0 = 0
  tri : Triangle D
  perm : us.Perm ((A ++ m :: B) :: w :: (ss ++ kept))
  keep : kept.Sublist us
  pos : ∃ i j : ℕ, us[i]? = some (A ++ m :: B) ∧ us[j]? = some w ∧ i ≠ j

/-- How much a limit is exceeded. -/
def rxExc (lim : Option ℚ) (eps x : ℚ) : Option ℚ := if exceeds lim eps x then some (x - lim.getD 0) else none

/-- The arguments in this situation. -/
abbrev rxA (D : ℕ → ℕ → ℚ) (d : ℕ → ℚ) (C L : Option ℚ) (dm : Option ℤ) (A : List ℕ) (m : ℕ) (B P Q : List ℕ)
    (ss : List (List ℕ)) : RxArgs :=
  { D := D, d := d, C := C, L := L, to_move := m
    r1_delta := cost D (wrap (A ++ B)) - cost D (wrap (A ++ m :: B))
    r2_delta := cost D (wrap (P ++ m :: Q)) - cost D (wrap (P ++ Q)), discard_at_most := dm
    d_excess := rxExc C C_EPS (demand d (P ++ Q) + d m)
    l_excess := rxExc L S_EPS (cost D (wrap (P ++ m :: Q)))
    route2 := wrap (P ++ Q), r2_l := cost D (wrap (P ++ Q)), r2_d := demand d (P ++ Q)
    slack := (ss ++ [A ++ B, []]).map (rdOf D d) }

/-- A limit that is kept after something is taken away. -/
theorem excess_within {lim : Option ℚ} {eps x y : ℚ} (he : 0 < eps) (hxy : y ≤ x)
    (h : (!truthy (rxExc lim eps x) || decide ((rxExc lim eps x).getD 0 ≤ x - y + eps)) = true) :
    Within lim eps y := by
  unfold rxExc at h
  by_cases c : exceeds lim eps x = true
  · rw [if_pos c] at h
    intro cc hc h0
    subst hc
    have hx : cc + eps < x := by
      by_contra hn
      have : Within (some cc) eps x := by
        intro c' hc' _
        injection hc' with hc'
        rw [← hc']
        linarith
      rw [(exceeds_iff _ _ _).2 this] at c
      exact Bool.noConfusion c
    simp only [Option.getD_some, Bool.or_eq_true, Bool.not_eq_true', decide_eq_true_eq] at h
    rcases h with h | h
    · have : ¬ InUse (some (x - cc)) := by
        rw [← truthy_iff]
        simp [h]
      exact absurd ⟨x - cc, rfl, by intro hh; linarith⟩ this
    · linarith
  · have := (exceeds_iff lim eps x).1 (by simpa using c)
    exact within_mono this hxy

variable {P Q : List ℕ} {N : ℕ} {D : ℕ → ℕ → ℚ} {d : ℕ → ℚ} {C L : Option ℚ} {us : List (List ℕ)} {A B w : List ℕ} {m : ℕ}
  {ss kept : List (List ℕ)}

theorem RxCtx.nodup (h : RxCtx N D d C L us A m B w ss kept) :
    (A ++ m :: B).Nodup ∧ w.Nodup ∧ m ∉ A ∧ m ∉ w ∧ 0 ∉ w ∧ 0 ∉ A ++ m :: B ∧ (∀ s ∈ ss, 0 ∉ s) := by
  have hn := (List.Perm.nodup_iff h.perm.flatten).1 h.part.nodup
  simp only [List.flatten_cons] at hn
  obtain ⟨n1, n2, n3⟩ := List.nodup_append.1 hn
  obtain ⟨n4, -, -⟩ := List.nodup_append.1 n2
  have hz : ∀ u ∈ us, 0 ∉ u := fun u hu h0 => by have := (h.part.range u hu 0 h0).1; omega
  refine ⟨n1, n4, ?_, ?_, ?_, ?_, ?_⟩
  · intro hA
    exact (List.nodup_append.1 n1).2.2 m hA m (List.mem_cons_self ..) rfl
  · intro hw
    exact n3 m (by simp) m (List.mem_append_left _ hw) rfl
  · exact hz w (h.perm.mem_iff.2 (by simp))
  · exact hz _ (h.perm.mem_iff.2 (by simp))
  · intro s hs
    exact hz s (h.perm.mem_iff.2 (by simp [hs]))

theorem rxVisit_group (h : RxCtx N D d C L us A m B (P ++ Q) ss kept) (dm : Option ℤ) {e : RxEntry}
    (hs : e.ns.Sublist (P ++ Q)) (hd : e.dem = demand d e.ns) (hlim : e.ns.length ≤ 1 ∨ MayDiscard dm e.ns.length) :
    ∃ rds es, rxVisit (rxA D d C L dm A m B P Q ss) e = .ok (rds, es) ∧
      (rds = [] ∨ RelaxGroup D d C L dm us rds) ∧
      (es = [] ∨ (es = rxBranch (rxA D d C L dm A m B P Q ss) e ∧ MayDiscard dm (e.ns.length + 1))) := by
  obtain ⟨k1, k2, k3, k4, k5, k6, k7⟩ := h.nodup
  have hn0 : 0 ∉ e.ns := fun hh => k5 (hs.subset hh)
  set w' := (P ++ Q).filter fun n => decide (n ∉ e.ns) with hw'
  have hperm := perm_filter_not_mem k2 hs
  rw [← hw'] at hperm
  obtain ⟨P', Q', j, e1, e2, e3, e4⟩ := rxScan_wrap D m w'
  unfold rxVisit
  simp only [rxA]
  rw [filter_wrap hn0, ← hw', e2]
  simp only
  have hwsub : w'.Sublist (P ++ Q) := List.filter_sublist
  have hcw : cost D (wrap w') ≤ cost D (wrap (P ++ Q)) := cost_more_stops h.tri hwsub 0 0
  have hcnew : cost D (wrap (P' ++ m :: Q')) ≤ cost D (wrap (P ++ m :: Q)) := by
    have hsp : w' = (P.filter fun n => decide (n ∉ e.ns)) ++ (Q.filter fun n => decide (n ∉ e.ns)) := by
      rw [hw', List.filter_append]
    have := (e4 (P.filter fun n => decide (n ∉ e.ns)) (Q.filter fun n => decide (n ∉ e.ns))
      (by rw [← e1, hsp])).1
    refine this.trans (cost_more_stops h.tri ?_ 0 0)
    exact List.Sublist.append List.filter_sublist (List.Sublist.cons_cons _ List.filter_sublist)
  have hdem : demand d (P ++ Q) = demand d w' + demand d e.ns := by
    rw [demand_perm d hperm, demand_append]
  have hdnew : demand d (P' ++ m :: Q') = demand d w' + d m := by
    rw [e1]
    simp
    ring
  have hokc : rxEnough (rxExc C C_EPS (demand d (P ++ Q) + d m))
      (rxExc L S_EPS (cost D (wrap (P ++ m :: Q)))) e.dem
      (cost D (wrap (P ++ Q)) + (cost D (wrap (P ++ m :: Q)) - cost D (wrap (P ++ Q))) -
          (cost D (wrap w') + (cost D (wrap (P' ++ m :: Q')) - cost D (wrap w')))) = true →
      RouteOk D d C L (P' ++ m :: Q') := by
    intro c
    unfold rxEnough at c
    rw [Bool.and_eq_true] at c
    obtain ⟨c1, c2⟩ := c
    constructor
    · refine excess_within (x := demand d (P ++ Q) + d m) (by unfold C_EPS; norm_num) ?_ ?_
      · rw [hdnew, hdem]
        have := demand_nonneg h.nn e.ns
        linarith
      · rw [show demand d (P ++ Q) + d m - demand d (P' ++ m :: Q') = e.dem by rw [hdnew, hdem, hd]; ring]
        exact c1
    · refine excess_within (x := cost D (wrap (P ++ m :: Q))) (by unfold S_EPS; norm_num) hcnew ?_
      rw [show cost D (wrap (P ++ m :: Q)) - cost D (wrap (P' ++ m :: Q')) =
        cost D (wrap (P ++ Q)) + (cost D (wrap (P ++ m :: Q)) - cost D (wrap (P ++ Q))) -
        (cost D (wrap w') + (cost D (wrap (P' ++ m :: Q')) - cost D (wrap w'))) by ring]
      exact c2
  by_cases c : rxEnough (rxExc C C_EPS (demand d (P ++ Q) + d m))
      (rxExc L S_EPS (cost D (wrap (P ++ m :: Q)))) e.dem
      (cost D (wrap (P ++ Q)) + (cost D (wrap (P ++ m :: Q)) - cost D (wrap (P ++ Q))) -
          (cost D (wrap w') + (cost D (wrap (P' ++ m :: Q')) - cost D (wrap w')))) = true
  · rw [if_pos c]
    split_ifs with c3
    · exact ⟨[], [], rfl, Or.inl rfl, Or.inl rfl⟩
    · have hb1 : Book D (some d) C (RouteData.of_route D (some d) ([0] ++ e.ns ++ [0])) := rdOf_book D C e.ns
      obtain ⟨r, r1, r2⟩ := C20_redistribute_partial (L := L) (st := .BEST_ACCEPT) (bd := some (-(cost D (wrap (A ++ B)) -
        cost D (wrap (A ++ m :: B)) + (cost D (wrap (P' ++ m :: Q')) - cost D (wrap w'))))) (level := 0) (by omega)
        (rd1 := RouteData.of_route D (some d) ([0] ++ e.ns ++ [0]))
        (routes := (ss ++ [A ++ B, []]).map (rdOf D d)) (cs := e.ns) rfl hb1 (by
          intro rd hrd
          obtain ⟨u, -, rfl⟩ := List.mem_map.1 hrd
          exact ⟨⟨rfl, List.getLast?_concat (l := 0 :: u)⟩, by simp [rdOf_route, wrap], rdOf_book D C u⟩)
        (Or.inl h.tri)
      rw [r1]
      cases r with
      | none => exact ⟨[], [], rfl, Or.inl rfl, Or.inl rfl⟩
      | some p =>
        obtain ⟨rds, x⟩ := p
        obtain ⟨routes', rds', f1, -, f3, f4, f5⟩ := r2 rds x rfl
        have f3 := f3 (by omega)
        subst f3
        subst f1
        refine ⟨_, [], rfl, Or.inr ?_, Or.inl rfl⟩
        simp only [List.tail_cons]
        have hmapr : ((ss ++ [A ++ B, []]).map (rdOf D d)).map (·.route) = (ss ++ [A ++ B, []]).map wrap := by
          rw [List.map_map]
          rfl
        have hAB : 0 ∉ A ++ B := by
          intro hh
          apply k6
          simp only [List.mem_append, List.mem_cons] at hh ⊢
          tauto
        obtain ⟨vs, g1, g2, g3⟩ := received_wraps f4 hmapr (by
          intro t ht
          simp only [List.mem_append, List.mem_cons, List.not_mem_nil, or_false] at ht
          rcases ht with ht | rfl | rfl
          · exact k7 t ht
          · exact hAB
          · simp) hn0
        obtain ⟨-, -, f43, f44, f45⟩ := f4
        rw [g1, hmapr] at f44 f45
        rw [total_wraps, total_wraps] at f44
        rw [fitsAll_wraps h.d0, fitsAll_wraps h.d0] at f45
        have hin : ∀ u, u ∈ (A ++ m :: B) :: (P ++ Q) :: (ss ++ kept) → RouteOk D d C L u := fun u hu =>
          h.part.ok u (h.perm.mem_iff.2 hu)
        have hokvs := f45 (by
          intro t ht
          simp only [List.mem_append, List.mem_cons, List.not_mem_nil, or_false] at ht
          rcases ht with ht | rfl | rfl
          · exact hin t (by simp [ht])
          · refine routeOk_sublist h.nn h.tri ?_ (hin (A ++ m :: B) (by simp))
            exact List.Sublist.append (List.Sublist.refl _) (List.sublist_cons_self ..)
          · exact routeOk_sublist h.nn h.tri (List.nil_sublist _) (hin (A ++ m :: B) (by simp)))
        refine ⟨kept, (P' ++ m :: Q') :: vs, h.keep, ?_, ?_, ?_, ?_, ?_, m, P ++ Q, e.ns, P' ++ m :: Q', ?_, by simp, hs,
          ⟨P', Q', by rw [← e1, hw'], rfl, e4⟩, hlim⟩
        · rw [List.map_cons, List.map_cons, g1, e3]
        · intro rd hrd
          rcases List.mem_cons.1 hrd with rfl | hrd
          · refine ⟨?_, fun _ => ⟨d, rfl, ?_⟩⟩
            · simp only [e3]
              ring
            · simp only [e3]
              rw [demand_wrap0 h.d0, hdnew, hd, hdem]
              congr 1
              ring
          · exact (f43 rd hrd).2
        · have p1 := h.perm.flatten
          simp only [List.flatten_append, List.flatten_cons, List.flatten_nil, List.append_nil] at p1 g3 ⊢
          refine List.Perm.trans ?_ p1.symm
          rw [List.perm_iff_count] at g3 hperm ⊢
          intro y
          have g3 := g3 y
          have hp := hperm y
          rw [e1] at hp
          simp only [List.count_append, List.count_cons] at g3 hp ⊢
          omega
        · intro v hv
          rcases List.mem_cons.1 hv with rfl | hv
          · exact hokc c
          · exact hokvs v hv
        · have hus : cost D (tour us) = cost D (wrap (A ++ m :: B)) + (cost D (wrap (P ++ Q)) +
              ((ss.map fun b => cost D (wrap b)).sum + (kept.map fun b => cost D (wrap b)).sum)) := by
            rw [cost_tour_sum, (h.perm.map _).sum_eq]
            simp
          have hnew : cost D (tour (kept ++ (P' ++ m :: Q') :: vs)) = (kept.map fun b => cost D (wrap b)).sum +
              (cost D (wrap (P' ++ m :: Q')) + cost D (tour vs)) := by
            rw [cost_tour_sum, cost_tour_sum]
            simp
          have hsl : cost D (tour (ss ++ [A ++ B, []])) = (ss.map fun b => cost D (wrap b)).sum +
              cost D (wrap (A ++ B)) := by
            rw [cost_tour_sum]
            have : cost D (wrap []) = 0 := by simp [wrap, h.D0]
            simp [this]
          by_cases hz : -(cost D (wrap (A ++ B)) - cost D (wrap (A ++ m :: B)) +
              (cost D (wrap (P' ++ m :: Q')) - cost D (wrap w'))) = 0
          · right
            obtain ⟨i, jj, p1, p2, p3⟩ := h.pos
            have hmP' : m ∉ P' := fun hh => k4 (hwsub.subset (by rw [e1]; simp [hh]))
            refine ⟨i, jj, _, _, P' ++ m :: Q', m, p1, p2, p3, by simp, by simp, by simp, ?_, ?_⟩
            · rw [erase_mid hmP', ← e1]
              exact hwsub
            · unfold visitCost
              rw [erase_mid hmP', erase_mid k3, ← e1]
              linarith
          · left
            have := f5 _ rfl hz
            rw [hus, hnew, f44, hsl]
            linarith
        · exact h.perm.mem_iff.2 (by simp)
  · rw [if_neg c]
    cases dm with
    | none => exact ⟨[], _, rfl, Or.inl rfl, Or.inr ⟨rfl, by simp [MayDiscard]⟩⟩
    | some k =>
      simp only
      split_ifs with c4
      · refine ⟨[], _, rfl, Or.inl rfl, Or.inr ⟨rfl, ?_⟩⟩
        intro k' hk' hk0
        injection hk' with hk'
        subst hk'
        rcases c4 with c4 | c4
        · exact absurd c4 hk0
        · push_cast
          omega
      · exact ⟨[], _, rfl, Or.inl rfl, Or.inl rfl⟩

end Verif
