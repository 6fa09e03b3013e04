import Verif.Spec.LocalSearch
import Verif.Lemmas.Ropt

/-! # Lemmas about the local search -/

namespace Verif

open Verif.Spec

theorem mem_pyPermsAux {α : Type} : ∀ (n : ℕ) (l : List α), l.Nodup → ∀ p : List α,
    p ∈ pyPermsAux n l ↔ p.length = n ∧ p.Nodup ∧ ∀ a ∈ p, a ∈ l := by
  intro n
  induction n with
  | zero =>
    intro l _ p
    simp only [pyPermsAux, List.mem_singleton]
    constructor
    · rintro rfl; simp
    · rintro ⟨h, -⟩; exact List.length_eq_zero_iff.1 h
  | succ n ih =>
    intro l hl p
    simp only [pyPermsAux, List.mem_flatMap, List.mem_range]
    constructor
    · rintro ⟨i, hi, h⟩
      rw [List.getElem?_eq_getElem hi] at h
      simp only [List.mem_map] at h
      obtain ⟨q, hq, rfl⟩ := h
      obtain ⟨h1, h2, h3⟩ := (ih _ (hl.sublist (List.eraseIdx_sublist ..)) q).1 hq
      refine ⟨by simp [h1], ?_, ?_⟩
      · rw [List.nodup_cons]
        refine ⟨fun hm => ?_, h2⟩
        have := h3 _ hm
        rw [List.mem_eraseIdx_iff_getElem] at this
        obtain ⟨j, hj, hji, e⟩ := this
        exact hji ((List.Nodup.getElem_inj_iff hl).1 e)
      · intro a ha
        rcases List.mem_cons.1 ha with rfl | ha
        · exact List.getElem_mem hi
        · exact List.mem_of_mem_eraseIdx (h3 a ha)
    · rintro ⟨h1, h2, h3⟩
      cases p with
      | nil => simp at h1
      | cons a q =>
        obtain ⟨i, hi, e⟩ := List.getElem_of_mem (h3 a (by simp))
        refine ⟨i, hi, ?_⟩
        rw [List.getElem?_eq_getElem hi]
        simp only [List.mem_map]
        refine ⟨q, ?_, by rw [e]⟩
        rw [List.nodup_cons] at h2
        refine (ih _ (hl.sublist (List.eraseIdx_sublist ..)) q).2 ⟨by simpa using h1, h2.2, ?_⟩
        intro b hb
        obtain ⟨j, hj, e'⟩ := List.getElem_of_mem (h3 b (by simp [hb]))
        rw [List.mem_eraseIdx_iff_getElem]
        refine ⟨j, hj, ?_, e'⟩
        rintro rfl
        apply h2.1
        rw [← e, e']
        exact hb

theorem nodup_pyPermsAux {α : Type} : ∀ (n : ℕ) (l : List α), l.Nodup → (pyPermsAux n l).Nodup := by
  intro n
  induction n with
  | zero => intro l _; simp [pyPermsAux]
  | succ n ih =>
    intro l hl
    simp only [pyPermsAux]
    rw [List.nodup_flatMap]
    constructor
    · intro i hi
      rw [List.mem_range] at hi
      rw [List.getElem?_eq_getElem hi]
      exact (ih _ (hl.sublist (List.eraseIdx_sublist ..))).map (fun a b h => by simpa using h)
    · refine (List.nodup_range (n := l.length)).imp_of_mem ?_
      intro i j hi hj hij p hp hq
      rw [List.mem_range] at hi hj
      simp only [List.getElem?_eq_getElem hi, List.getElem?_eq_getElem hj, List.mem_map] at hp hq
      obtain ⟨p', -, rfl⟩ := hp
      obtain ⟨q', -, e⟩ := hq
      simp only [List.cons.injEq] at e
      exact hij ((List.Nodup.getElem_inj_iff hl).1 e.1.symm)

theorem is_sorted_iff : ∀ l : List ℕ, is_sorted l = true ↔ l.Pairwise (· ≤ ·)
  | [] => by simp [is_sorted]
  | [_] => by simp [is_sorted]
  | a :: b :: t => by
    rw [List.pairwise_cons]
    simp only [is_sorted, Bool.and_eq_true, decide_eq_true_eq, is_sorted_iff (b :: t)]
    constructor
    · rintro ⟨h1, h2⟩
      refine ⟨?_, h2⟩
      intro x hx
      rcases List.mem_cons.1 hx with rfl | hx
      · exact h1
      · exact h1.trans ((List.pairwise_cons.1 h2).1 x hx)
    · rintro ⟨h1, h2⟩
      exact ⟨h1 b (by simp), h2⟩

theorem getAll_congr {rds rds' : List RouteData} : ∀ {ris : List ℕ},
    (∀ ri ∈ ris, rds'[ri]? = rds[ri]?) → getAll rds' ris = getAll rds ris
  | [], _ => rfl
  | a :: t, h => by
    have e : idx rds' a = idx rds a := by unfold idx; rw [h a (by simp)]
    have e' := getAll_congr (rds := rds) (rds' := rds') (ris := t) fun ri hr => h ri (by simp [hr])
    simp only [getAll, e, e']

theorem callOp_congr {rds rds' : List RouteData} {ris : List ℕ} (op : LsOp) (st : LSOPT)
    (h : ∀ ri ∈ ris, rds'[ri]? = rds[ri]?) : callOp op rds' ris st = callOp op rds ris st := by
  unfold callOp
  rw [getAll_congr h]

theorem changed_append (rds : List RouteData) (a b : Changes) :
    changed rds (a ++ b) = changed (changed rds a) b := by simp [changed]

theorem changed_get {ri : ℕ} : ∀ (res : Changes) (rds : List RouteData), ri ∉ res.map (·.1) →
    (changed rds res)[ri]? = rds[ri]?
  | [], _, _ => rfl
  | (a, x) :: t, rds, h => by
    simp only [List.map_cons, List.mem_cons, not_or] at h
    have := changed_get t (rds.set a x) h.2
    rw [List.getElem?_set_ne (Ne.symm h.1)] at this
    exact this

theorem changed_length : ∀ (res : Changes) (rds : List RouteData),
    (changed rds res).length = rds.length
  | [], _ => rfl
  | (a, x) :: t, rds => by
    have := changed_length t (rds.set a x)
    rw [List.length_set] at this
    exact this

/-- A group of routes that can be searched: different, and all non-empty. -/
def Elig (rds : List RouteData) (n : ℕ) (ris : List ℕ) : Prop :=
  ris.Nodup ∧ ris.length = n ∧ ∀ ri ∈ ris, ∃ rd, rds[ri]? = some rd ∧ 2 < rd.route.length

/-- A result that can be applied. -/
def ResOk (D : ℕ → ℕ → ℚ) (Inv : List RouteData → Prop) (rds : List RouteData) (idxs : List ℕ)
    (res : Changes) (delta : ℚ) : Prop :=
  (res.map (·.1)).Nodup ∧ (∀ c ∈ res, c.1 ∈ idxs) ∧ Inv (changed rds res) ∧
    totalR D (changed rds res) = totalR D rds + delta ∧ delta + S_EPS < 0

/-- The invariant of the indices: those of the non-empty routes. -/
def IdxOk (s : LsState) : Prop :=
  s.idxs.Nodup ∧ ∀ i, i ∈ s.idxs ↔ ∃ rd, s.rds[i]? = some rd ∧ 2 < rd.route.length

/-- The invariant of the marks: what is marked finds nothing, and is registered for all its routes. -/
def MarksOk (ops : List LsOp) (st : LSOPT) (s : LsState) : Prop :=
  ∀ ris nm, (ris, nm) ∈ s.marks → (∀ ri ∈ ris, (ri, ris) ∈ s.reg) ∧
    ∀ op ∈ ops, op.name = nm → callOp op s.rds ris st = .ok none

/-- The state of the combination loop is right, with `rest` the groups to go. -/
def CombOk (D : ℕ → ℕ → ℚ) (Inv : List RouteData → Prop) (op : LsOp) (st : LSOPT) (s : LsState)
    (rest : List (List ℕ)) (c : Option (Changes × ℚ) × List (List ℕ)) : Prop :=
  (∀ ris ∈ c.2, callOp op s.rds ris st = .ok none) ∧
  ∀ res delta, c.1 = some (res, delta) → ResOk D Inv s.rds s.idxs res delta ∧
    (op.count = 1 → ∀ ris ∈ rest, ∀ x ∈ res, x.1 ∉ ris)

theorem zip_fst {ris : List ℕ} {rds : List RouteData} (h : rds.length = ris.length) :
    (ris.zip rds).map (·.1) = ris := by
  rw [show (fun x : ℕ × RouteData => x.1) = Prod.fst from rfl, List.map_fst_zip (by omega)]

theorem comb_keep {D : ℕ → ℕ → ℚ} {Inv : List RouteData → Prop} {op : LsOp} {st : LSOPT}
    {iter : ITEROPT} {s : LsState} (hop : OpOk D Inv st op) (hinv : Inv s.rds) (hidx : IdxOk s)
    {ris : List ℕ} {rest : List (List ℕ)} (hnd : (ris :: rest).Nodup)
    (hel : ∀ r ∈ ris :: rest, Elig s.rds op.count r)
    {c : Option (Changes × ℚ) × List (List ℕ)} (hc : CombOk D Inv op st s (ris :: rest) c)
    {rds' : List RouteData} {delta : ℚ} (hcall : callOp op s.rds ris st = .ok (some (rds', delta))) :
    CombOk D Inv op st s rest (keepResult op iter c.1 (ris.zip rds') delta, c.2) ∧
      keepResult op iter c.1 (ris.zip rds') delta ≠ none := by
  obtain ⟨e1, e2, e3⟩ := hel ris (by simp)
  have get : ∀ rds, Inv rds → (∀ ri ∈ ris, rds[ri]? = s.rds[ri]?) → rds'.length = ris.length ∧
      Inv (changed rds (ris.zip rds')) ∧
      totalR D (changed rds (ris.zip rds')) = totalR D rds + delta ∧ delta + S_EPS < 0 := by
    intro rds hi hg
    obtain ⟨o, h1, h2⟩ := hop rds hi ris e1 e2 (fun ri hr => by rw [hg ri hr]; exact e3 ri hr)
    rw [callOp_congr op st hg, hcall] at h1
    cases h1
    exact h2 rds' delta rfl
  obtain ⟨n1, n2, n3, n4⟩ := get s.rds hinv (fun _ _ => rfl)
  have hmem : ∀ x ∈ ris.zip rds', x.1 ∈ ris := fun x hx => (List.of_mem_zip hx).1
  have hnew : ResOk D Inv s.rds s.idxs (ris.zip rds') delta := by
    refine ⟨by rw [zip_fst n1]; exact e1, ?_, n2, n3, n4⟩
    intro x hx
    exact (hidx.2 x.1).2 (e3 _ (hmem x hx))
  have hfresh : op.count = 1 → ∀ r ∈ rest, ∀ x ∈ ris.zip rds', x.1 ∉ r := by
    intro h1 r hr x hx hxr
    obtain ⟨a, ha⟩ := List.length_eq_one_iff.1 (e2.trans h1)
    obtain ⟨b, hb⟩ := List.length_eq_one_iff.1 ((hel r (by simp [hr])).2.1.trans h1)
    have hxa := hmem x hx
    rw [ha, List.mem_singleton] at hxa
    rw [hb, List.mem_singleton] at hxr
    rw [List.nodup_cons] at hnd
    apply hnd.1
    rw [ha, ← hxa, hxr, ← hb]
    exact hr
  have case_new : CombOk D Inv op st s rest (some (ris.zip rds', delta), c.2) := by
    refine ⟨hc.1, ?_⟩
    rintro res dl h
    simp only [Option.some.injEq, Prod.mk.injEq] at h
    obtain ⟨rfl, rfl⟩ := h
    exact ⟨hnew, hfresh⟩
  have case_old : CombOk D Inv op st s rest (c.1, c.2) := by
    refine ⟨hc.1, ?_⟩
    intro res dl h
    obtain ⟨g1, g2⟩ := hc.2 res dl h
    exact ⟨g1, fun h1 r hr => g2 h1 r (by simp [hr])⟩
  unfold keepResult
  rcases hb : c.1 with _ | ⟨br, bd⟩
  · exact ⟨case_new, by simp⟩
  · rw [hb] at case_old
    rcases hf : op.fn with f | ⟨k, f⟩
    · simp only
      split_ifs
      · exact ⟨case_old, by simp⟩
      · exact ⟨case_new, by simp⟩
      · refine ⟨⟨hc.1, ?_⟩, by simp⟩
        rintro res dl h
        simp only [Option.some.injEq, Prod.mk.injEq] at h
        obtain ⟨rfl, rfl⟩ := h
        have hcnt : op.count = 1 := by simp [LsOp.count, hf]
        obtain ⟨⟨p1, p2, p3, p4, p5⟩, g2⟩ := hc.2 br bd hb
        have hdis : ∀ x ∈ br, x.1 ∉ ris := g2 hcnt ris (by simp)
        obtain ⟨-, m2, m3, m4⟩ := get (changed s.rds br) p3 (fun ri hr => changed_get _ _ (by
          intro hm
          obtain ⟨x, hx, rfl⟩ := List.mem_map.1 hm
          exact hdis x hx hr))
        refine ⟨⟨?_, ?_, ?_, ?_, ?_⟩, ?_⟩
        · rw [List.map_append, zip_fst n1]
          refine List.Nodup.append p1 e1 ?_
          intro a ha hb'
          obtain ⟨x, hx, rfl⟩ := List.mem_map.1 ha
          exact hdis x hx hb'
        · intro x hx
          rcases List.mem_append.1 hx with hx | hx
          · exact p2 x hx
          · exact hnew.2.1 x hx
        · rw [changed_append]; exact m2
        · rw [changed_append, m3, p4]; ring
        · have := S_EPS_pos
          linarith
        · intro h1 r hr x hx
          rcases List.mem_append.1 hx with hx | hx
          · exact g2 h1 r (by simp [hr]) x hx
          · exact hfresh h1 r hr x hx
    · simp only
      split_ifs
      · exact ⟨case_new, by simp⟩
      · exact ⟨case_old, by simp⟩

/-- The loop over the combinations: no errors; what it found can be applied; if it found nothing then
all the groups it should have searched have nothing. -/
theorem combLoop_spec {D : ℕ → ℕ → ℚ} {Inv : List RouteData → Prop} {ops : List LsOp} {op : LsOp}
    {st : LSOPT} {iter : ITEROPT} {s : LsState} (hmem : op ∈ ops) (hop : OpOk D Inv st op)
    (hinv : Inv s.rds) (hidx : IdxOk s) (hmk : MarksOk ops st s) :
    ∃ best found b, combLoop op st iter s = .ok ((best, found), b) ∧
      (∀ ris ∈ found, callOp op s.rds ris st = .ok none) ∧
      (∀ res delta, best = some (res, delta) → ResOk D Inv s.rds s.idxs res delta) ∧
      (best = none → OpOptimal st s.rds op) := by
  have hel : ∀ r ∈ pyPermsAux op.count s.idxs, Elig s.rds op.count r := by
    intro r hr
    obtain ⟨h1, h2, h3⟩ := (mem_pyPermsAux _ _ hidx.1 r).1 hr
    exact ⟨h2, h1, fun ri hri => (hidx.2 ri).1 (h3 ri hri)⟩
  have hnd := nodup_pyPermsAux op.count s.idxs hidx.1
  have key : ∀ (l : List (List ℕ)), l.Nodup → (∀ r ∈ l, Elig s.rds op.count r) →
      ∀ c, CombOk D Inv op st s l c →
      ∃ c' b, forBreak l c (fun ris c =>
        if !op.sensitive && !is_sorted ris then .ok (c, false)
        else if s.marks.contains (ris, op.name) then .ok (c, false)
        else
          match callOp op s.rds ris st with
          | .error e => .error e
          | .ok none => .ok ((c.1, c.2 ++ [ris]), false)
          | .ok (some (rds', delta)) =>
            .ok ((keepResult op iter c.1 (ris.zip rds') delta, c.2), st == .FIRST_ACCEPT))
        = .ok (c', b) ∧
        CombOk D Inv op st s [] c' ∧ (c'.1 = none → c.1 = none ∧ ∀ ris ∈ l,
          (op.sensitive = true ∨ ris.Pairwise (· ≤ ·)) → callOp op s.rds ris st = .ok none) := by
    intro l
    induction l with
    | nil =>
      intro _ _ c hc
      exact ⟨c, false, rfl, hc, fun h => ⟨h, by simp⟩⟩
    | cons ris rest ih =>
      intro hn he c hc
      have hc' : CombOk D Inv op st s rest c :=
        ⟨hc.1, fun res dl h => ⟨(hc.2 res dl h).1, fun h1 r hr => (hc.2 res dl h).2 h1 r (by simp [hr])⟩⟩
      have ih' := ih (List.nodup_cons.1 hn).2 (fun r hr => he r (by simp [hr]))
      by_cases h1 : (!op.sensitive && !is_sorted ris) = true
      · obtain ⟨c', b, g1, g2, g3⟩ := ih' c hc'
        refine ⟨c', b, ?_, g2, fun h => ⟨(g3 h).1, ?_⟩⟩
        · simp only [forBreak, h1, if_true]; exact g1
        · intro r hr hs
          rcases List.mem_cons.1 hr with rfl | hr
          · exfalso
            simp only [Bool.and_eq_true, Bool.not_eq_true'] at h1
            rcases hs with hs | hs
            · rw [hs] at h1; exact absurd h1.1 (by simp)
            · rw [← is_sorted_iff, h1.2] at hs; exact absurd hs (by simp)
          · exact (g3 h).2 r hr hs
      · by_cases h2 : s.marks.contains (ris, op.name) = true
        · obtain ⟨c', b, g1, g2, g3⟩ := ih' c hc'
          refine ⟨c', b, ?_, g2, fun h => ⟨(g3 h).1, ?_⟩⟩
          · simp only [forBreak, h1, h2, if_true]; exact g1
          · intro r hr hs
            rcases List.mem_cons.1 hr with rfl | hr
            · exact (hmk _ _ (List.contains_iff_mem.1 h2)).2 op hmem rfl
            · exact (g3 h).2 r hr hs
        · obtain ⟨e1, e2, e3⟩ := he ris (by simp)
          obtain ⟨o, ho, -⟩ := hop s.rds hinv ris e1 e2 e3
          rcases o with _ | ⟨rds', delta⟩
          · obtain ⟨c', b, g1, g2, g3⟩ := ih' (c.1, c.2 ++ [ris]) ⟨by
                intro r hr
                rcases List.mem_append.1 hr with hr | hr
                · exact hc.1 r hr
                · rw [List.mem_singleton] at hr; subst hr; exact ho, hc'.2⟩
            refine ⟨c', b, ?_, g2, fun h => ⟨(g3 h).1, ?_⟩⟩
            · simp only [forBreak, h1, h2, ho]; exact g1
            · intro r hr hs
              rcases List.mem_cons.1 hr with rfl | hr
              · exact ho
              · exact (g3 h).2 r hr hs
          · obtain ⟨k1, k2⟩ := comb_keep (iter := iter) hop hinv hidx hn he hc ho
            by_cases hst : (st == .FIRST_ACCEPT) = true
            · refine ⟨(keepResult op iter c.1 (ris.zip rds') delta, c.2), true, ?_, ?_, ?_⟩
              · simp only [forBreak, h1, h2, ho, hst]; rfl
              · exact ⟨k1.1, fun res dl h => ⟨(k1.2 res dl h).1, by simp⟩⟩
              · exact fun h => absurd h k2
            · obtain ⟨c', b, g1, g2, g3⟩ := ih' _ k1
              refine ⟨c', b, ?_, g2, fun h => absurd (g3 h).1 k2⟩
              simp only [forBreak, h1, h2, ho, hst] at g1 ⊢
              exact g1
  obtain ⟨⟨best, found⟩, b, g1, g2, g3⟩ := key _ hnd hel (none, [])
    ⟨by simp, by simp⟩
  refine ⟨best, found, b, g1, g2.1, fun res dl h => (g2.2 res dl h).1, fun h => ?_⟩
  intro ris r1 r2 r3 r4
  refine (g3 h).2 ris ?_ r4
  exact (mem_pyPermsAux _ _ hidx.1 ris).2 ⟨r2, r1, fun a ha => (hidx.2 a).2 (r3 a ha)⟩

/-- Application of a result: no errors, the routes change as told, and the bookkeeping stays right. -/
theorem applyResult_spec {ops : List LsOp} {st : LSOPT} : ∀ (res : Changes) (s : LsState),
    (res.map (·.1)).Nodup → (∀ c ∈ res, c.1 ∈ s.idxs) → IdxOk s → MarksOk ops st s →
    ∃ s', applyResult res s = .ok s' ∧ s'.rds = changed s.rds res ∧ IdxOk s' ∧ MarksOk ops st s' := by
  intro res
  induction res with
  | nil => intro s _ _ h1 h2; exact ⟨s, rfl, rfl, h1, h2⟩
  | cons c t ih =>
    obtain ⟨ri, rd⟩ := c
    intro s hn hm hi hk
    simp only [List.map_cons, List.nodup_cons] at hn
    have hri : ri ∈ s.idxs := hm (ri, rd) (by simp)
    obtain ⟨rd0, h0, -⟩ := (hi.2 ri).1 hri
    have hlt : ri < s.rds.length := by
      rw [List.getElem?_eq_some_iff] at h0
      exact h0.1
    have hset : setIdx s.rds ri rd = .ok (s.rds.set ri rd) := by simp [setIdx, hlt]
    have hmk : ∀ idxs, MarksOk ops st ⟨s.rds.set ri rd, idxs,
        s.marks.filter (fun m => !s.reg.contains (ri, m.1)), s.reg⟩ := by
      intro idxs ris nm h
      simp only [List.mem_filter, Bool.not_eq_true', List.contains_eq_mem,
        decide_eq_false_iff_not] at h
      obtain ⟨g1, g2⟩ := hk ris nm h.1
      refine ⟨g1, fun op ho hnm => ?_⟩
      rw [callOp_congr (rds := s.rds) op st]
      · exact g2 op ho hnm
      · intro r hr
        refine List.getElem?_set_ne ?_
        rintro rfl
        exact h.2 (g1 _ hr)
    by_cases hl : rd.route.length ≤ 2
    · have hc : s.idxs.contains ri = true := by simpa using hri
      obtain ⟨s', g1, g2, g3, g4⟩ := ih ⟨s.rds.set ri rd, s.idxs.erase ri,
        s.marks.filter (fun m => !s.reg.contains (ri, m.1)), s.reg⟩ hn.2 (by
          intro x hx
          rw [hi.1.mem_erase_iff]
          refine ⟨?_, hm x (by simp [hx])⟩
          rintro rfl
          exact hn.1 (List.mem_map.2 ⟨x, hx, rfl⟩)) ⟨hi.1.erase ri, by
          intro i
          simp only
          rw [hi.1.mem_erase_iff]
          by_cases he : i = ri
          · subst he
            rw [List.getElem?_set_self hlt]
            simp only [ne_eq, not_true, false_and, Option.some.injEq, false_iff]
            rintro ⟨rd', rfl, h⟩
            omega
          · rw [List.getElem?_set_ne (Ne.symm he), ← hi.2 i]
            simp [he]⟩ (hmk _)
      refine ⟨s', ?_, g2, g3, g4⟩
      simp only [applyResult, hset, hl, hc, if_true]
      exact g1
    · obtain ⟨s', g1, g2, g3, g4⟩ := ih ⟨s.rds.set ri rd, s.idxs,
        s.marks.filter (fun m => !s.reg.contains (ri, m.1)), s.reg⟩ hn.2
          (fun x hx => hm x (by simp [hx])) ⟨hi.1, by
          intro i
          simp only
          by_cases he : i = ri
          · subst he
            rw [List.getElem?_set_self hlt]
            simp only [hri, Option.some.injEq, true_iff]
            exact ⟨rd, rfl, by omega⟩
          · rw [List.getElem?_set_ne (Ne.symm he), ← hi.2 i]⟩ (hmk _)
      refine ⟨s', ?_, g2, g3, g4⟩
      simp only [applyResult, hset, hl, if_false]
      exact g1

theorem markOptimal_ok {ops : List LsOp} {st : LSOPT} {s : LsState} {op : LsOp} (hd : Distinct ops)
    (ho : op ∈ ops) (hk : MarksOk ops st s) {found : List (List ℕ)}
    (hf : ∀ ris ∈ found, callOp op s.rds ris st = .ok none) :
    MarksOk ops st (markOptimal op found s) := by
  intro ris nm h
  simp only [markOptimal, List.mem_append, List.mem_map, Prod.mk.injEq] at h ⊢
  rcases h with ⟨r, hr, rfl, rfl⟩ | h
  · refine ⟨fun ri hri => Or.inl (List.mem_flatMap.2 ⟨r, hr, List.mem_map.2 ⟨ri, hri, rfl⟩⟩), ?_⟩
    intro op' ho' hnm
    rw [hd op' ho' op ho hnm]
    exact hf r hr
  · obtain ⟨g1, g2⟩ := hk ris nm h
    exact ⟨fun ri hri => Or.inr (g1 ri hri), g2⟩

/-- All of the state is right. -/
def StOk (Inv : List RouteData → Prop) (ops : List LsOp) (st : LSOPT) (s : LsState) : Prop :=
  Inv s.rds ∧ IdxOk s ∧ MarksOk ops st s

/-- One pass over the operators. `n` bounds the number of improvements still possible. -/
theorem opsLoop_spec {D : ℕ → ℕ → ℚ} {Inv : List RouteData → Prop} {ops : List LsOp}
    {st : LSOPT} {iter : ITEROPT} {m : ℚ} (hm : ∀ rds, Inv rds → m ≤ totalR D rds)
    (hd : Distinct ops) (hops : ∀ op ∈ ops, OpOk D Inv st op) :
    ∀ (fuel n i : ℕ) (s : LsState) (bi : Option (Changes × ℚ)) (imp : Bool), StOk Inv ops st s →
      totalR D s.rds - m ≤ n * S_EPS → n + (ops.length - i) < fuel →
      (∀ res dl, bi = some (res, dl) → iter = .BEST_ACCEPT ∧ ResOk D Inv s.rds s.idxs res dl) →
      (imp = false → bi = none → ∀ j op, j < i → ops[j]? = some op → OpOptimal st s.rds op) →
      ∃ s' bi' imp', opsLoop ops st iter fuel s i bi imp = .ok (some (s', bi', imp')) ∧
        StOk Inv ops st s' ∧ totalR D s'.rds ≤ totalR D s.rds ∧
        (imp' = true → imp = false → totalR D s'.rds + S_EPS < totalR D s.rds) ∧
        (∀ res dl, bi' = some (res, dl) → iter = .BEST_ACCEPT ∧ ResOk D Inv s'.rds s'.idxs res dl) ∧
        (imp' = false → bi' = none → ∀ op ∈ ops, OpOptimal st s'.rds op) := by
  intro fuel
  induction fuel with
  | zero => intro n i s bi imp _ _ h; omega
  | succ fuel ih =>
    intro n i s bi imp hs hn hfuel hbi hopt
    rcases hi : ops[i]? with _ | op
    · refine ⟨s, bi, imp, by simp [opsLoop, hi], hs, le_refl _, ?_, hbi, ?_⟩
      · intro h1 h2; rw [h1] at h2; exact absurd h2 (by simp)
      · intro h1 h2 op ho
        obtain ⟨j, hj, e⟩ := List.getElem_of_mem ho
        rw [List.getElem?_eq_none_iff] at hi
        exact hopt h1 h2 j op (by omega) (by rw [List.getElem?_eq_getElem hj, e])
    · have hil : i < ops.length := by
        rw [List.getElem?_eq_some_iff] at hi; exact hi.1
      have hmem : op ∈ ops := List.mem_of_getElem? hi
      obtain ⟨h1, h2, h3⟩ := hs
      obtain ⟨best, found, b, g1, g2, g3, g4⟩ := combLoop_spec (iter := iter) hmem (hops op hmem) h1 h2 h3
      have hs' : StOk Inv ops st (markOptimal op found s) :=
        ⟨h1, h2, markOptimal_ok hd hmem h3 g2⟩
      rcases best with _ | ⟨res, delta⟩
      · have hopt' : imp = false → bi = none → ∀ j op', j < i + 1 → ops[j]? = some op' →
            OpOptimal st s.rds op' := by
          intro e1 e2 j op' hj hj'
          rcases Nat.lt_succ_iff_lt_or_eq.1 hj with hj | rfl
          · exact hopt e1 e2 j op' hj hj'
          · rw [hi] at hj'; cases hj'; exact g4 rfl
        obtain ⟨s', bi', imp', r1, r⟩ := ih n (i + 1) (markOptimal op found s) bi imp hs' hn (by omega)
          hbi hopt'
        refine ⟨s', bi', imp', ?_, r⟩
        simp only [opsLoop, hi, g1]
        exact r1
      · have hres := g3 res delta rfl
        by_cases hb : iter = .BEST_ACCEPT
        · have hbi' : ∀ r dl, keepBest bi res delta = some (r, dl) →
              iter = .BEST_ACCEPT ∧ ResOk D Inv s.rds s.idxs r dl := by
            intro r dl h
            unfold keepBest at h
            rcases bi with _ | ⟨r0, d0⟩
            · simp only [Option.some.injEq, Prod.mk.injEq] at h
              obtain ⟨rfl, rfl⟩ := h
              exact ⟨hb, hres⟩
            · simp only at h
              split_ifs at h
              · simp only [Option.some.injEq, Prod.mk.injEq] at h
                obtain ⟨rfl, rfl⟩ := h
                exact ⟨hb, hres⟩
              · exact hbi r dl h
          have hne : keepBest bi res delta ≠ none := by
            unfold keepBest
            rcases bi with _ | ⟨r0, d0⟩
            · simp
            · simp only
              split_ifs <;> simp
          obtain ⟨s', bi', imp', r1, r⟩ := ih n (i + 1) (markOptimal op found s)
            (keepBest bi res delta) imp hs' hn (by omega) hbi' (fun _ h => absurd h hne)
          refine ⟨s', bi', imp', ?_, r⟩
          simp only [opsLoop, hi, g1]
          rw [if_pos hb]
          exact r1
        · obtain ⟨q1, q2, q3, q4, q5⟩ := hres
          obtain ⟨s1, a1, a2, a3, a4⟩ := applyResult_spec (ops := ops) (st := st) res
            (markOptimal op found s) q1 q2 hs'.2.1 hs'.2.2
          have hs1 : StOk Inv ops st s1 := ⟨by rw [a2]; exact q3, a3, a4⟩
          have hbn : bi = none := by
            rcases bi with _ | ⟨r0, d0⟩
            · rfl
            · exact absurd (hbi r0 d0 rfl).1 hb
          subst hbn
          have htot : totalR D s1.rds = totalR D s.rds + delta := by rw [a2]; exact q4
          have he := S_EPS_pos
          have hlow := hm s1.rds hs1.1
          obtain ⟨n', rfl⟩ : ∃ n', n = n' + 1 := by
            cases n with
            | zero => exfalso; simp only [Nat.cast_zero, zero_mul] at hn; linarith
            | succ n' => exact ⟨n', rfl⟩
          push_cast at hn
          have hdrop : ∀ s' : LsState, totalR D s'.rds ≤ totalR D s1.rds →
              totalR D s'.rds ≤ totalR D s.rds ∧
                totalR D s'.rds + S_EPS < totalR D s.rds := by
            intro s' h
            constructor <;> linarith
          by_cases hf : iter = .FIRST_ACCEPT
          · refine ⟨s1, none, true, ?_, hs1, (hdrop s1 (le_refl _)).1,
              fun _ _ => (hdrop s1 (le_refl _)).2, by simp, by simp⟩
            simp only [opsLoop, hi, g1, a1, hb, if_false]
            rw [if_pos hf]
          · by_cases hr : iter = .REPEATED_ACCEPT
            · obtain ⟨s', bi', imp', r1, r2, r3, -, r5, r6⟩ := ih n' i s1 none true hs1 (by linarith)
                (by omega) (by simp) (by simp)
              refine ⟨s', bi', imp', ?_, r2, (hdrop s' r3).1, fun _ _ => (hdrop s' r3).2, r5, r6⟩
              simp only [opsLoop, hi, g1, a1, hb, hf, if_false]
              rw [if_pos hr]
              exact r1
            · obtain ⟨s', bi', imp', r1, r2, r3, -, r5, r6⟩ := ih n' (i + 1) s1 none true hs1
                (by linarith) (by omega) (by simp) (by simp)
              refine ⟨s', bi', imp', ?_, r2, (hdrop s' r3).1, fun _ _ => (hdrop s' r3).2, r5, r6⟩
              simp only [opsLoop, hi, g1, a1, hb, hf, if_false]
              rw [if_neg hr]
              exact r1

/-- The whole search. -/
theorem lsLoop_spec {D : ℕ → ℕ → ℚ} {Inv : List RouteData → Prop} {ops : List LsOp}
    {st : LSOPT} {iter : ITEROPT} {m : ℚ} (hm : ∀ rds, Inv rds → m ≤ totalR D rds)
    (hd : Distinct ops) (hops : ∀ op ∈ ops, OpOk D Inv st op) (mi : Option ℕ) (ofuel : ℕ) :
    ∀ (fuel n : ℕ) (s : LsState) (it : ℕ), StOk Inv ops st s →
      totalR D s.rds - m ≤ n * S_EPS → n < fuel → n + ops.length < ofuel →
      ∃ s', lsLoop ops st iter mi ofuel fuel s it = .ok (some s') ∧ StOk Inv ops st s' ∧
        totalR D s'.rds ≤ totalR D s.rds ∧
        (mi = none ∨ mi = some 0 → ∀ op ∈ ops, OpOptimal st s'.rds op) := by
  intro fuel
  induction fuel with
  | zero => intro n s it _ _ h; omega
  | succ fuel ih =>
    intro n s it hs hn hf hof
    obtain ⟨s1, bi, imp, g1, g2, g3, g4, g5, g6⟩ := opsLoop_spec (iter := iter) hm hd hops ofuel n 0 s
      none false hs hn (by omega) (by simp) (by simp)
    have he := S_EPS_pos
    obtain ⟨s2, imp2, e1, e2, e3, e4, e5⟩ : ∃ s2 imp2, endIteration iter s1 bi imp = .ok (s2, imp2) ∧
        StOk Inv ops st s2 ∧ totalR D s2.rds ≤ totalR D s.rds ∧
        (imp2 = true → totalR D s2.rds + S_EPS < totalR D s.rds) ∧
        (imp2 = false → ∀ op ∈ ops, OpOptimal st s2.rds op) := by
      rcases bi with _ | ⟨res, dl⟩
      · exact ⟨s1, imp, rfl, g2, g3, fun h => g4 h rfl, fun h => g6 h rfl⟩
      · obtain ⟨hb, q1, q2, q3, q4, q5⟩ := g5 res dl rfl
        obtain ⟨s2, a1, a2, a3, a4⟩ := applyResult_spec (ops := ops) (st := st) res s1 q1 q2 g2.2.1 g2.2.2
        have ht : totalR D s2.rds = totalR D s1.rds + dl := by rw [a2]; exact q4
        refine ⟨s2, true, by simp [endIteration, hb, a1], ⟨by rw [a2]; exact q3, a3, a4⟩,
          by linarith, fun _ => by linarith, by simp⟩
    have hrec : imp2 = true → ∃ s', lsLoop ops st iter mi ofuel fuel s2 (it + 1) = .ok (some s') ∧
        StOk Inv ops st s' ∧ totalR D s'.rds ≤ totalR D s.rds ∧
        (mi = none ∨ mi = some 0 → ∀ op ∈ ops, OpOptimal st s'.rds op) := by
      intro h
      have h4 := e4 h
      have hlow := hm s2.rds e2.1
      obtain ⟨n', rfl⟩ : ∃ n', n = n' + 1 := by
        cases n with
        | zero => exfalso; simp only [Nat.cast_zero, zero_mul] at hn; linarith
        | succ n' => exact ⟨n', rfl⟩
      push_cast at hn
      obtain ⟨s', r1, r2, r3, r4⟩ := ih n' s2 (it + 1) e2 (by linarith) (by omega) (by omega)
      exact ⟨s', r1, r2, r3.trans e3, r4⟩
    have hgo : ∃ s', (if imp2 = true then lsLoop ops st iter mi ofuel fuel s2 (it + 1)
          else .ok (some s2)) = .ok (some s') ∧
        StOk Inv ops st s' ∧ totalR D s'.rds ≤ totalR D s.rds ∧
        (mi = none ∨ mi = some 0 → ∀ op ∈ ops, OpOptimal st s'.rds op) := by
      by_cases h : imp2 = true
      · rw [if_pos h]; exact hrec h
      · rw [if_neg h]; exact ⟨s2, rfl, e2, e3, fun _ => e5 (by simpa using h)⟩
    obtain ⟨s', r1, r2⟩ := hgo
    rcases mi with _ | _ | k
    · refine ⟨s', ?_, r2⟩
      simp only [lsLoop, g1, e1]
      exact r1
    · refine ⟨s', ?_, r2⟩
      simp only [lsLoop, g1, e1]
      exact r1
    · by_cases hk : k + 1 ≤ it + 1
      · refine ⟨s2, ?_, e2, e3, by simp⟩
        simp only [lsLoop, g1, e1]
        rw [if_pos hk]
      · refine ⟨s', ?_, r2⟩
        simp only [lsLoop, g1, e1]
        rw [if_neg hk]
        exact r1

end Verif
