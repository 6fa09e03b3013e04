import Verif.Lemmas.LocalSearch
import Verif.Lemmas.Util
import Verif.Props.IntraRoute
import Verif.Props.InterRoute

/-! # The operators fulfil the contract of the local search -/

namespace Verif

open Verif.Spec

theorem depots_count {r : List ℕ} (h : Depots r) : DepotEnds r ∧ r.count 0 = 2 := by
  obtain ⟨b, rfl, hb⟩ := h
  refine ⟨depotEnds_wrap b, ?_⟩
  simp [wrap, List.count_eq_zero_of_not_mem hb]

theorem depotEnds_long {r : List ℕ} (h : DepotEnds r) (h2 : 2 ≤ r.length) : ∃ b, r = wrap b := by
  rcases depotEnds_cases h with rfl | h
  · simp at h2
  · exact h

theorem depots_of {r : List ℕ} (h : DepotEnds r) (h2 : 2 ≤ r.length) (hc : r.count 0 ≤ 2) :
    Depots r := by
  obtain ⟨b, rfl⟩ := depotEnds_long h h2
  refine ⟨b, rfl, ?_⟩
  simp only [wrap, List.count_cons_self, List.count_append, List.count_nil] at hc
  exact List.count_eq_zero.1 (by omega)

theorem all_two {l : List ℕ} (h : ∀ x ∈ l, 2 ≤ x) (hs : l.sum ≤ 2 * l.length) : ∀ x ∈ l, x ≤ 2 := by
  have ge : ∀ l : List ℕ, (∀ x ∈ l, 2 ≤ x) → 2 * l.length ≤ l.sum := by
    intro l
    induction l with
    | nil => simp
    | cons a t ih =>
      intro h
      have := ih (fun x hx => h x (by simp [hx]))
      have := h a (by simp)
      simp only [List.length_cons, List.sum_cons]
      omega
  induction l with
  | nil => simp
  | cons a t ih =>
    have h1 := ge t (fun x hx => h x (by simp [hx]))
    have h2 := h a (by simp)
    simp only [List.length_cons, List.sum_cons] at hs
    intro x hx
    rcases List.mem_cons.1 hx with rfl | hx
    · omega
    · exact ih (fun x hx => h x (by simp [hx])) (by omega) x hx

theorem depots_group {rs rs' : List (List ℕ)} (hc : Conserves rs rs') (h : ∀ r ∈ rs, Depots r)
    (h2 : ∀ r ∈ rs', 2 ≤ r.length) : ∀ r ∈ rs', Depots r := by
  obtain ⟨c1, c2, c3⟩ := hc
  have c3 := c3 (fun r hr => (depots_count (h r hr)).1)
  have e1 : ∀ rs : List (List ℕ), (∀ r ∈ rs, Depots r) →
      (rs.map (List.count 0)).sum = 2 * rs.length := by
    intro rs h
    induction rs with
    | nil => rfl
    | cons a t ih =>
      rw [List.map_cons, List.sum_cons, ih (fun r hr => h r (by simp [hr])),
        (depots_count (h a (by simp))).2, List.length_cons]
      ring
  have e2 : (rs'.map (List.count 0)).sum = 2 * rs'.length := by
    rw [← List.count_flatten, c1.count_eq, List.count_flatten, e1 rs h, c2]
  have e3 : ∀ x ∈ rs'.map (List.count 0), 2 ≤ x := by
    intro x hx
    obtain ⟨r, hr, rfl⟩ := List.mem_map.1 hx
    obtain ⟨b, rfl⟩ := depotEnds_long (c3 r hr) (h2 r hr)
    simp [wrap]
  have e4 := all_two e3 (by rw [e2, List.length_map])
  intro r hr
  exact depots_of (c3 r hr) (h2 r hr) (e4 _ (List.mem_map.2 ⟨r, hr, rfl⟩))

theorem map_range_get (l : List RouteData) :
    l = (List.range l.length).map (fun i => (l[i]?).getD .new) := by
  refine List.ext_getElem (by simp) ?_
  intro i h1 h2
  simp [h1]

theorem getAll_eq {rds : List RouteData} : ∀ {ris : List ℕ},
    (∀ ri ∈ ris, ri < rds.length) →
    getAll rds ris = .ok (ris.map (fun i => (rds[i]?).getD .new))
  | [], _ => rfl
  | a :: t, h => by
    have ha : a < rds.length := h a (by simp)
    have e : idx rds a = .ok ((rds[a]?).getD .new) := by simp [idx, ha]
    simp only [getAll, e, getAll_eq (ris := t) (fun ri hr => h ri (by simp [hr])), List.map_cons]

theorem changed_zip_map : ∀ {ris : List ℕ} {rds' rds : List RouteData}, ris.Nodup →
    rds'.length = ris.length → (∀ ri ∈ ris, ri < rds.length) →
    ris.map (fun i => ((changed rds (ris.zip rds'))[i]?).getD .new) = rds'
  | [], rds', rds, _, h, _ => by
    simp only [List.length_nil] at h
    simp [List.length_eq_zero_iff.1 h]
  | a :: t, rds', rds, hn, h, hl => by
    cases rds' with
    | nil => simp at h
    | cons x xs =>
      rw [List.nodup_cons] at hn
      have hx : xs.length = t.length := by simpa using h
      have ha : a < rds.length := hl a (by simp)
      have e : changed rds ((a :: t).zip (x :: xs)) = changed (rds.set a x) (t.zip xs) := rfl
      have ih := changed_zip_map (ris := t) (rds' := xs) (rds := rds.set a x) hn.2 hx
        (fun ri hr => by rw [List.length_set]; exact hl ri (by simp [hr]))
      rw [e, List.map_cons, ih, changed_get _ _ (by rw [zip_fst hx]; exact hn.1),
        List.getElem?_set_self ha]
      rfl

/-- A change of a group keeps the rest, up to the order. -/
theorem changed_perm {rds : List RouteData} {ris : List ℕ} (hn : ris.Nodup)
    (hl : ∀ ri ∈ ris, ri < rds.length) :
    ∃ rest, rds.Perm (ris.map (fun i => (rds[i]?).getD .new) ++ rest) ∧
      ∀ rds' : List RouteData, rds'.length = ris.length →
        (changed rds (ris.zip rds')).Perm (rds' ++ rest) := by
  have hp : (List.range rds.length).Perm
      (ris ++ (List.range rds.length).filter (fun i => i ∉ ris)) := by
    refine (List.perm_ext_iff_of_nodup List.nodup_range ?_).2 ?_
    · refine List.Nodup.append hn (List.nodup_range.filter _) ?_
      intro a ha hb
      simp only [List.mem_filter, decide_eq_true_eq] at hb
      exact hb.2 ha
    · intro a
      simp only [List.mem_range, List.mem_append, List.mem_filter, decide_eq_true_eq]
      constructor
      · intro h; by_cases h' : a ∈ ris
        · exact Or.inl h'
        · exact Or.inr ⟨h, h'⟩
      · rintro (h | h)
        · exact hl a h
        · exact h.1
  refine ⟨((List.range rds.length).filter (fun i => i ∉ ris)).map (fun i => (rds[i]?).getD .new),
    ?_, ?_⟩
  · rw [← List.map_append]
    conv_lhs => rw [map_range_get rds]
    exact hp.map _
  · intro rds' h
    conv_lhs => rw [map_range_get (changed rds (ris.zip rds')), changed_length]
    refine (hp.map _).trans ?_
    rw [List.map_append, changed_zip_map hn h hl]
    refine List.Perm.append_left _ ?_
    refine List.Perm.of_eq (List.map_congr_left ?_)
    intro i hi
    simp only [List.mem_filter, decide_eq_true_eq] at hi
    rw [changed_get _ _ (by rw [zip_fst h]; exact hi.2)]

theorem totalR_perm {D : ℕ → ℕ → ℚ} {a b : List RouteData} (h : a.Perm b) :
    totalR D a = totalR D b := by
  unfold totalR total
  exact ((h.map _).map _).sum_eq

theorem totalR_append (D : ℕ → ℕ → ℚ) (a b : List RouteData) :
    totalR D (a ++ b) = totalR D a + totalR D b := by simp [totalR, total]

/-- The contract from what an operator does to its group only. -/
theorem groupContract {D : ℕ → ℕ → ℚ} {d : Option (ℕ → ℚ)} {C L : Option ℚ}
    {B : RouteData → Prop} {R0 : List (List ℕ)} {rds grp rds' : List RouteData} {ris : List ℕ}
    {delta : ℚ} (hs : Sound D d C L B R0 rds) (hn : ris.Nodup) (hl : ∀ ri ∈ ris, ri < rds.length)
    (hg : grp = ris.map (fun i => (rds[i]?).getD .new)) (hlen : rds'.length = ris.length)
    (hc : Conserves (grp.map (·.route)) (rds'.map (·.route)))
    (h2 : ∀ rd ∈ rds', 2 ≤ rd.route.length) (hB : (∀ rd ∈ grp, B rd) → ∀ rd ∈ rds', B rd)
    (hfit : FitsAll D d C L C_EPS S_EPS (grp.map (·.route)) →
      FitsAll D d C L C_EPS S_EPS (rds'.map (·.route)))
    (hcost : totalR D rds' = totalR D grp + delta) :
    Sound D d C L B R0 (changed rds (ris.zip rds')) ∧
      totalR D (changed rds (ris.zip rds')) = totalR D rds + delta := by
  obtain ⟨rest, p1, p2⟩ := changed_perm hn hl
  rw [← hg] at p1
  have p2 := p2 rds' hlen
  obtain ⟨s1, s2, s3, s4⟩ := hs
  have hmem : ∀ rd, rd ∈ grp ∨ rd ∈ rest → rd ∈ rds := fun rd h =>
    p1.mem_iff.2 (List.mem_append.2 h)
  refine ⟨⟨?_, ?_, ?_, ?_⟩, ?_⟩
  · refine ((p2.map _).flatten).trans (List.Perm.trans ?_ s1)
    refine List.Perm.trans ?_ ((p1.map (·.route)).flatten).symm
    rw [List.map_append, List.map_append, List.flatten_append, List.flatten_append]
    exact hc.1.append_right _
  · rw [changed_length]; exact s2
  · intro rd hrd
    rcases List.mem_append.1 (p2.mem_iff.1 hrd) with h | h
    · refine ⟨?_, hB (fun rd h => (s3 rd (hmem rd (Or.inl h))).2) rd h⟩
      refine depots_group (rs := grp.map (·.route)) (rs' := rds'.map (·.route)) hc ?_ ?_ _
        (List.mem_map.2 ⟨rd, h, rfl⟩)
      · intro r hr
        obtain ⟨x, hx, rfl⟩ := List.mem_map.1 hr
        exact (s3 x (hmem x (Or.inl hx))).1
      · intro r hr
        obtain ⟨x, hx, rfl⟩ := List.mem_map.1 hr
        exact h2 x hx
    · exact s3 rd (hmem rd (Or.inr h))
  · intro h0 r hr
    obtain ⟨rd, hrd, rfl⟩ := List.mem_map.1 hr
    have s4 := s4 h0
    rcases List.mem_append.1 (p2.mem_iff.1 hrd) with h | h
    · refine hfit ?_ _ (List.mem_map.2 ⟨rd, h, rfl⟩)
      intro r hr
      obtain ⟨x, hx, rfl⟩ := List.mem_map.1 hr
      exact s4 _ (List.mem_map.2 ⟨x, hmem x (Or.inl hx), rfl⟩)
    · exact s4 _ (List.mem_map.2 ⟨rd, hmem rd (Or.inr h), rfl⟩)
  · rw [totalR_perm p1, totalR_perm p2, totalR_append, totalR_append, hcost]
    ring

theorem elig_get {rds : List RouteData} {ris : List ℕ}
    (h : ∀ ri ∈ ris, ∃ rd, rds[ri]? = some rd ∧ 2 < rd.route.length) :
    (∀ ri ∈ ris, ri < rds.length) ∧ ∀ rd ∈ ris.map (fun i => (rds[i]?).getD .new), rd ∈ rds := by
  constructor
  · intro ri hr
    obtain ⟨rd, h1, -⟩ := h ri hr
    exact (List.getElem?_eq_some_iff.1 h1).1
  · intro rd hrd
    obtain ⟨i, hi, rfl⟩ := List.mem_map.1 hrd
    obtain ⟨rd, h1, -⟩ := h i hi
    rw [h1]
    exact List.mem_of_getElem? h1

/-- The contract of an operator on one route. -/
theorem single_ok {D : ℕ → ℕ → ℚ} {d : Option (ℕ → ℚ)} {C L : Option ℚ}
    {B : RouteData → Prop} {R0 : List (List ℕ)} {st : LSOPT} {nm : ℕ} {sens : Bool}
    {f : List ℕ → LSOPT → Py (Option (List ℕ × ℚ))}
    (hB : ∀ rd r' delta, B rd → r'.Perm rd.route → cost D r' = cost D rd.route + delta →
      B ⟨r', rd.cost + delta, rd.demand⟩)
    (hf : ∀ rds, Sound D d C L B R0 rds → ∀ rd ∈ rds, ∃ o, f rd.route st = .ok o ∧
      ∀ r' delta, o = some (r', delta) → (r'.Perm rd.route ∧ r'.head? = rd.route.head? ∧
        r'.getLast? = rd.route.getLast?) ∧ cost D r' = cost D rd.route + delta ∧
        delta + S_EPS < 0) :
    OpOk D (Sound D d C L B R0) st ⟨nm, sens, .single f⟩ := by
  intro rds hs ris hn hlen hel
  obtain ⟨i, rfl⟩ : ∃ i, ris = [i] := List.length_eq_one_iff.1 hlen
  obtain ⟨rd, hi, hrl⟩ := hel i (by simp)
  obtain ⟨g1, g2⟩ := elig_get hel
  obtain ⟨o, h1, h2⟩ := hf rds hs rd (List.mem_of_getElem? hi)
  have hget : getAll rds [i] = .ok [rd] := by rw [getAll_eq g1]; simp [hi]
  rcases o with _ | ⟨r', delta⟩
  · exact ⟨none, by simp [callOp, hget, h1], by simp⟩
  · refine ⟨some ([⟨r', rd.cost + delta, rd.demand⟩], delta), by simp [callOp, hget, h1], ?_⟩
    rintro rds' dl h
    simp only [Option.some.injEq, Prod.mk.injEq] at h
    obtain ⟨rfl, rfl⟩ := h
    obtain ⟨⟨p1, p2, p3⟩, p4, p5⟩ := h2 r' delta rfl
    have he := S_EPS_pos
    obtain ⟨q1, q2⟩ := groupContract (grp := [rd]) (ris := [i])
      (rds' := [⟨r', rd.cost + delta, rd.demand⟩]) (delta := delta) hs hn g1 (by simp [hi]) rfl
      ⟨by simpa using p1, rfl, by
        intro h r hr
        simp only [List.map_cons, List.map_nil, List.mem_singleton] at hr h
        subst hr
        have := h rd.route rfl
        exact ⟨p2.trans this.1, p3.trans this.2⟩⟩
      (by
        intro x hx
        rw [List.mem_singleton] at hx
        subst hx
        simp only
        rw [p1.length_eq]
        omega)
      (by
        intro h x hx
        rw [List.mem_singleton] at hx
        subst hx
        exact hB rd r' delta (h rd (by simp)) p1 p4)
      (by
        intro h r hr
        simp only [List.map_cons, List.map_nil, List.mem_singleton] at hr
        subst hr
        obtain ⟨k1, k2⟩ := h rd.route (by simp)
        refine ⟨fun f hf => ?_, fun c hc hc0 => ?_⟩
        · rw [demand_perm f p1]; exact k1 f hf
        · have := k2 c hc hc0
          linarith)
      (by simpa [totalR, total] using p4)
    exact ⟨rfl, q1, q2, p5⟩

/-- The record stays true when a move on the route is recorded. -/
theorem book_single {D : ℕ → ℕ → ℚ} {d : Option (ℕ → ℚ)} {C : Option ℚ} (rd : RouteData)
    (r' : List ℕ) (delta : ℚ) (h : Book D d C rd) (hp : r'.Perm rd.route)
    (hc : cost D r' = cost D rd.route + delta) : Book D d C ⟨r', rd.cost + delta, rd.demand⟩ := by
  refine ⟨?_, fun hC => ?_⟩
  · simp only
    rw [h.1, hc]
  · obtain ⟨f, h1, h2⟩ := h.2 hC
    exact ⟨f, h1, by simp only; rw [demand_perm f hp]; exact h2⟩

theorem circuit_of_depots {r : List ℕ} (h : Depots r) (hn : (customers r).Nodup) : Circuit r := by
  obtain ⟨b, rfl, hb⟩ := h
  refine ⟨0, b, 0, rfl, ?_, hb⟩
  rw [List.nodup_cons]
  refine ⟨hb, ?_⟩
  have : customers (wrap b) = b := by
    have hb' : ∀ x ∈ b, x ≠ 0 := fun x hx h0 => hb (h0 ▸ hx)
    unfold customers wrap
    rw [List.filter_cons_of_neg (by simp), List.filter_append]
    have := customers_zerofree b hb'
    unfold customers at this
    rw [this]
    simp
  rw [this] at hn
  exact hn

theorem sound_nodup {D : ℕ → ℕ → ℚ} {d : Option (ℕ → ℚ)} {C L : Option ℚ}
    {B : RouteData → Prop} {R0 : List (List ℕ)} {rds : List RouteData}
    (hs : Sound D d C L B R0 rds) (hn : (customers R0.flatten).Nodup) :
    ∀ rd ∈ rds, (customers rd.route).Nodup := by
  intro rd hrd
  have : (customers (rds.map (·.route)).flatten).Nodup :=
    (hs.1.filter _).nodup_iff.2 hn
  refine this.sublist ?_
  exact (List.sublist_flatten_of_mem (List.mem_map.2 ⟨rd, hrd, rfl⟩)).filter _

section
variable {D : ℕ → ℕ → ℚ} {d : Option (ℕ → ℚ)} {C L : Option ℚ} {B : RouteData → Prop}
  {R0 : List (List ℕ)}

theorem op2opt_ok (hD : Symm D) (st : LSOPT)
    (hB : ∀ rd r' delta, B rd → r'.Perm rd.route → cost D r' = cost D rd.route + delta →
      B ⟨r', rd.cost + delta, rd.demand⟩) : OpOk D (Sound D d C L B R0) st (op2opt D) := by
  refine single_ok hB ?_
  intro rds _ rd _
  obtain ⟨o, h1, h2⟩ := C12_two_opt hD rd.route st none
  refine ⟨o, h1, ?_⟩
  rintro r' delta rfl
  exact ⟨nb2opt_same h2.1, h2.2.1, h2.2.2.1⟩

theorem op3opt_ok (hD : Symm D) (st : LSOPT)
    (hB : ∀ rd r' delta, B rd → r'.Perm rd.route → cost D r' = cost D rd.route + delta →
      B ⟨r', rd.cost + delta, rd.demand⟩) : OpOk D (Sound D d C L B R0) st (op3opt D) := by
  refine single_ok hB ?_
  intro rds _ rd _
  obtain ⟨o, h1, h2⟩ := C13_three_opt hD rd.route st none
  refine ⟨o, h1, ?_⟩
  rintro r' delta rfl
  exact ⟨nb3opt_same h2.1, h2.2.1, h2.2.2.1⟩

theorem opRelocate_ok (st : LSOPT)
    (hB : ∀ rd r' delta, B rd → r'.Perm rd.route → cost D r' = cost D rd.route + delta →
      B ⟨r', rd.cost + delta, rd.demand⟩) : OpOk D (Sound D d C L B R0) st (opRelocate D) := by
  refine single_ok hB ?_
  intro rds _ rd _
  obtain ⟨o, h1, h2⟩ := C14_sound D rd.route st none
  refine ⟨o, h1, ?_⟩
  rintro r' delta rfl
  exact ⟨nbRelocate_same h2.1, h2.2.1, h2.2.2.1⟩

theorem opExchange_ok (hn : (customers R0.flatten).Nodup) (st : LSOPT)
    (hB : ∀ rd r' delta, B rd → r'.Perm rd.route → cost D r' = cost D rd.route + delta →
      B ⟨r', rd.cost + delta, rd.demand⟩) : OpOk D (Sound D d C L B R0) st (opExchange D) := by
  refine single_ok hB ?_
  intro rds hs rd hrd
  obtain ⟨o, h1, h2⟩ := C15_exchange D
    (circuit_of_depots (hs.2.2.1 rd hrd).1 (sound_nodup hs hn rd hrd)) st none
  refine ⟨o, h1, ?_⟩
  rintro r' delta rfl
  exact ⟨nbExchange_same h2.1, h2.2.1, h2.2.2.1⟩

/-- The contract of an operator on a pair of routes. -/
theorem two_ok {st : LSOPT} {nm : ℕ} {sens : Bool}
    {f : RouteData → RouteData → LSOPT → Py (Option (List RouteData × ℚ))}
    (hf : ∀ a b, Depots a.route → B a → Depots b.route → B b → ∃ o, f a b st = .ok o ∧
      ∀ rds' delta, o = some (rds', delta) →
        Conserves [a.route, b.route] (rds'.map (·.route)) ∧
        (∀ rd ∈ rds', 2 ≤ rd.route.length) ∧ (∀ rd ∈ rds', B rd) ∧
        (FitsAll D d C L C_EPS S_EPS [a.route, b.route] →
          FitsAll D d C L C_EPS S_EPS (rds'.map (·.route))) ∧
        totalR D rds' = totalR D [a, b] + delta ∧ delta + S_EPS < 0) :
    OpOk D (Sound D d C L B R0) st ⟨nm, sens, .multi 0 (onTwo f)⟩ := by
  intro rds hs ris hn hlen hel
  obtain ⟨i, j, rfl⟩ : ∃ i j, ris = [i, j] := List.length_eq_two.1 hlen
  obtain ⟨a, hi, hal⟩ := hel i (by simp)
  obtain ⟨b, hj, hbl⟩ := hel j (by simp)
  obtain ⟨g1, g2⟩ := elig_get hel
  have ha := hs.2.2.1 a (List.mem_of_getElem? hi)
  have hb := hs.2.2.1 b (List.mem_of_getElem? hj)
  obtain ⟨o, h1, h2⟩ := hf a b ha.1 ha.2 hb.1 hb.2
  have hget : getAll rds [i, j] = .ok [a, b] := by rw [getAll_eq g1]; simp [hi, hj]
  refine ⟨o, by simp [callOp, hget, onTwo, h1], ?_⟩
  rintro rds' delta rfl
  obtain ⟨k1, k2, k3, k4, k5, k6⟩ := h2 rds' delta rfl
  have hl : rds'.length = 2 := by have := k1.2.1; simpa using this
  obtain ⟨q1, q2⟩ := groupContract (grp := [a, b]) (ris := [i, j]) (rds' := rds') (delta := delta)
    hs hn g1 (by simp [hi, hj]) (by simpa using hl) k1 k2 (fun _ => k3) k4 k5
  exact ⟨by simpa using hl, q1, q2, k6⟩

/-- The contract of an operator on three routes. -/
theorem three_ok {st : LSOPT} {nm : ℕ} {sens : Bool}
    {f : RouteData → RouteData → RouteData → LSOPT → Py (Option (List RouteData × ℚ))}
    (hf : ∀ a b c, Depots a.route → B a → Depots b.route → B b → Depots c.route → B c →
      ∃ o, f a b c st = .ok o ∧ ∀ rds' delta, o = some (rds', delta) →
        Conserves [a.route, b.route, c.route] (rds'.map (·.route)) ∧
        (∀ rd ∈ rds', 2 ≤ rd.route.length) ∧ (∀ rd ∈ rds', B rd) ∧
        (FitsAll D d C L C_EPS S_EPS [a.route, b.route, c.route] →
          FitsAll D d C L C_EPS S_EPS (rds'.map (·.route))) ∧
        totalR D rds' = totalR D [a, b, c] + delta ∧ delta + S_EPS < 0) :
    OpOk D (Sound D d C L B R0) st ⟨nm, sens, .multi 1 (onThree f)⟩ := by
  intro rds hs ris hn hlen hel
  obtain ⟨i, j, k, rfl⟩ : ∃ i j k, ris = [i, j, k] := List.length_eq_three.1 hlen
  obtain ⟨a, hi, hal⟩ := hel i (by simp)
  obtain ⟨b, hj, hbl⟩ := hel j (by simp)
  obtain ⟨c, hk, hcl⟩ := hel k (by simp)
  obtain ⟨g1, g2⟩ := elig_get hel
  have ha := hs.2.2.1 a (List.mem_of_getElem? hi)
  have hb := hs.2.2.1 b (List.mem_of_getElem? hj)
  have hc := hs.2.2.1 c (List.mem_of_getElem? hk)
  obtain ⟨o, h1, h2⟩ := hf a b c ha.1 ha.2 hb.1 hb.2 hc.1 hc.2
  have hget : getAll rds [i, j, k] = .ok [a, b, c] := by rw [getAll_eq g1]; simp [hi, hj, hk]
  refine ⟨o, by simp [callOp, hget, onThree, h1], ?_⟩
  rintro rds' delta rfl
  obtain ⟨k1, k2, k3, k4, k5, k6⟩ := h2 rds' delta rfl
  have hl : rds'.length = 3 := by have := k1.2.1; simpa using this
  obtain ⟨q1, q2⟩ := groupContract (grp := [a, b, c]) (ris := [i, j, k]) (rds' := rds')
    (delta := delta) hs hn g1 (by simp [hi, hj, hk]) (by simpa using hl) k1 k2 (fun _ => k3) k4 k5
  exact ⟨by simpa using hl, q1, q2, k6⟩

theorem len_routes {rds' : List RouteData} {rs : List (List ℕ)} (h : rds'.map (·.route) = rs)
    (hr : ∀ r ∈ rs, 2 ≤ r.length) : ∀ rd ∈ rds', 2 ≤ rd.route.length := by
  intro rd hrd
  apply hr
  rw [← h]
  exact List.mem_map.2 ⟨rd, hrd, rfl⟩

theorem op1point_ok (hD : MoveSafe D) (hd : NonnegDemands d) (st : LSOPT) :
    OpOk D (Sound D d C L (Book D d C) R0) st (op1point D d C L) := by
  refine two_ok ?_
  intro a b _ ha _ hb
  obtain ⟨o, h1, h2⟩ := C16_one_point (L := L) ha hb st none
  refine ⟨o, h1, ?_⟩
  rintro rds' delta rfl
  refine ⟨C16_conserves ha hb h1, ?_, h2.2.2.1, fun hf => C16_feasible_rounded ha hb hD hd hf le_rfl h1, h2.2.2.2.1,
    h2.2.2.2.2.1⟩
  obtain ⟨A, B', E, F, n, hA, hB', hE, hF, -, hr⟩ := h2.1
  refine len_routes hr ?_
  have := List.length_pos_iff.2 hA
  have := List.length_pos_iff.2 hB'
  have := List.length_pos_iff.2 hE
  have := List.length_pos_iff.2 hF
  rw [mem2]
  simp only [List.length_append]
  omega

theorem op2point_ok (st : LSOPT) :
    OpOk D (Sound D d C L (Book D d C) R0) st (op2point D d C L) := by
  refine two_ok ?_
  intro a b _ ha _ hb
  obtain ⟨o, h1, h2⟩ := C17_two_point (L := L) ha hb st none
  refine ⟨o, h1, ?_⟩
  rintro rds' delta rfl
  refine ⟨C17_conserves ha hb h1, ?_, h2.2.2.1, fun _ => ?_, h2.2.2.2.1, h2.2.2.2.2.1⟩
  · obtain ⟨A, B', E, F, n, m, hA, hB', hE, hF, -, hr⟩ := h2.1
    refine len_routes hr ?_
    have := List.length_pos_iff.2 hA
    have := List.length_pos_iff.2 hB'
    have := List.length_pos_iff.2 hE
    have := List.length_pos_iff.2 hF
    rw [mem2]
    simp only [List.length_append]
    omega
  · intro r hr
    obtain ⟨k1, k2⟩ := h2.2.1 r hr
    refine ⟨k1, fun c hc hc0 => ?_⟩
    have := k2 c hc hc0
    have := S_EPS_pos
    linarith

theorem opChain_ok (hD : Triangle D) (hd : NonnegDemands d) (st : LSOPT) :
    OpOk D (Sound D d C L (Book D d C) R0) st (opChain D d C L) := by
  refine three_ok ?_
  intro a b c _ ha _ hb _ hc
  obtain ⟨o, h1, h2⟩ := C21_chain (L := L) ha hb hc st none
  refine ⟨o, h1, ?_⟩
  rintro rds' delta rfl
  refine ⟨C21_conserves ha hb hc h1, ?_, h2.2.2.1, fun hf => C21_feasible ha hb hc hD hd hf h1,
    h2.2.2.2.1, h2.2.2.2.2.1⟩
  obtain ⟨A, B', E, F, G, H, n, m, hA, hB', hE, hF, hG, hH, -, hr⟩ := h2.1
  refine len_routes hr ?_
  have := List.length_pos_iff.2 hA
  have := List.length_pos_iff.2 hB'
  have := List.length_pos_iff.2 hE
  have := List.length_pos_iff.2 hF
  have := List.length_pos_iff.2 hG
  have := List.length_pos_iff.2 hH
  rw [mem3]
  simp only [List.length_append]
  omega

theorem op2optstar_ok (hD : Symm D) (h0 : DepotFree d) (hC : InUse C → ∃ f, d = some f)
    (st : LSOPT) :
    OpOk D (Sound D d C L (fun _ => True) R0) st (op2optstar D d C L) := by
  refine two_ok ?_
  intro a b ha _ hb _
  obtain ⟨o, h1, h2⟩ := C18_two_opt_star_partial (L := L) hD h0 hC (depots_count ha).1
    (depots_count hb).1 st none
  refine ⟨o, h1, ?_⟩
  rintro rds' delta rfl
  refine ⟨(C18_conserves hD h0 hC (depots_count ha).1 (depots_count hb).1 h1).1, ?_,
    fun _ _ => trivial, fun _ => h2.2.1, h2.2.2.2.1, h2.2.2.2.2.1⟩
  obtain ⟨A, B', E, F, hA, hB', hE, hF, -, hr⟩ := h2.1
  have := List.length_pos_iff.2 hA
  have := List.length_pos_iff.2 hB'
  have := List.length_pos_iff.2 hE
  have := List.length_pos_iff.2 hF
  rcases hr with hr | hr
  all_goals
    refine len_routes hr ?_
    rw [mem2]
    simp only [List.length_append, List.length_reverse]
    omega

end

end Verif
