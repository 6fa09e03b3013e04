import Verif.Lemmas.Insert

/-! # Lemmas for the redistribution of a route -/

namespace Verif
open Spec

/-- Records the redistribution can work on. -/
def RdOk (D : ℕ → ℕ → ℚ) (d : Option (ℕ → ℚ)) (C : Option ℚ) (rd : RouteData) : Prop :=
  DepotEnds rd.route ∧ 2 ≤ rd.route.length ∧ Book D d C rd

theorem insert_node {D : ℕ → ℕ → ℚ} {d : Option (ℕ → ℚ)} {C L : Option ℚ} {rd : RouteData}
    (h : RdOk D d C rd) (st : LSOPT) (n : ℕ) :
    ∃ r, do_insert_move (.node n) rd D d C L st none = .ok r ∧
      ∀ rds t, r = some (rds, t) → ∃ rd', rds = [RouteData.new, rd'] ∧
        Inserted D d C L [n] rd rd' t := by
  obtain ⟨r, e1, e2⟩ := insert_core (L := L) h.2.2 h.1 h.2.1 st none [n] (und := demSum d [n])
    (fun hC => by obtain ⟨f, rfl, -⟩ := h.2.2.2 hC; exact demSum_ok f [n])
  refine ⟨r, e1, fun rds t hr => ?_⟩
  obtain ⟨rd', k1, k2, -⟩ := e2 rds t hr
  exact ⟨rd', k1, k2⟩

theorem inserted_rdOk {D : ℕ → ℕ → ℚ} {d : Option (ℕ → ℚ)} {C L : Option ℚ} {ns : List ℕ}
    {rd rd' : RouteData} {t : ℚ} (h : Inserted D d C L ns rd rd' t) (h' : RdOk D d C rd) :
    RdOk D d C rd' :=
  ⟨h.2.2.1, le_trans h'.2.1 h.1.length_le, h.2.2.2.1⟩

/-- With the triangle inequality an insertion does not make a route cheaper. -/
theorem cost_sublist_one {D : ℕ → ℕ → ℚ} (hD : Triangle D) {r r' : List ℕ} {n : ℕ}
    (hr : DepotEnds r) (h2 : 2 ≤ r.length)
    (h : r.Sublist r') (hp : r'.Perm ([n] ++ r)) (he : DepotEnds r') :
    cost D r ≤ cost D r' := by
  have hlen : r'.length = r.length + 1 := by rw [hp.length_eq]; simp
  obtain ⟨A, m, B, rfl, hr'⟩ : ∃ A m B, r = A ++ B ∧ r' = A ++ [m] ++ B := by
    clear hp hr h2 he
    induction h with
    | slnil => simp at hlen
    | @cons l₁ l₂ a h ih =>
      have : l₁ = l₂ := h.eq_of_length (by simp at hlen; omega)
      subst this
      exact ⟨[], a, l₁, rfl, rfl⟩
    | @cons_cons l₁ l₂ a h ih =>
      obtain ⟨A, m, B, e1, e2⟩ := ih (by simp at hlen; omega)
      exact ⟨a :: A, m, B, by rw [e1]; rfl, by rw [e2]; rfl⟩
  subst hr'
  by_cases hA : A = []
  · subst hA
    cases B with
    | nil => simp at h2
    | cons b B =>
      have h1 := hr.1
      have h3 := he.1
      simp at h1 h3
      subst h1 h3
      have := hD 0 0 0
      simp only [List.nil_append, List.singleton_append, cost_cons_cons]
      linarith
  · by_cases hB : B = []
    · subst hB
      obtain ⟨t, hA'⟩ := getLast_zero_split (s := A) (by simpa using hr.2)
      have := he.2
      simp at this
      subst this hA'
      have := hD 0 0 0
      have e : t ++ [0] ++ [0] ++ [] = t ++ [0, 0] := by simp
      rw [e, cost_concat]
      simp only [List.append_nil]
      linarith
    · obtain ⟨_, a, _, ha⟩ := ends hA
      obtain ⟨b, _, hb, _⟩ := ends hB
      have := cost_remove (D := D) (n := m) ha hb
      have := hD a m b
      linarith

theorem inserted_nonneg {D : ℕ → ℕ → ℚ} (hD : Triangle D) {d : Option (ℕ → ℚ)}
    {C L : Option ℚ} {n : ℕ} {rd rd' : RouteData} {t : ℚ} (h : Inserted D d C L [n] rd rd' t)
    (h' : RdOk D d C rd) : 0 ≤ t := by
  have h1 := cost_sublist_one hD h'.1 h'.2.1 h.1 h.2.1 h.2.2.1
  have h2 := h.2.2.2.2.1
  linarith

/-! ## one customer -/

/-- One customer is inserted to one of the routes. -/
def SetOne (D : ℕ → ℕ → ℚ) (d : Option (ℕ → ℚ)) (C L : Option ℚ) (n : ℕ) (rds rds' : List RouteData)
    (delta : ℚ) : Prop :=
  ∃ i rd rd', rds[i]? = some rd ∧ rds' = rds.set i rd' ∧ Inserted D d C L [n] rd rd' delta

theorem ltBound_none (x : ℚ) : ltBound x none = true := rfl

theorem ltBound_mono {x y : ℚ} {b : Option ℚ} (h : x ≤ y) (hx : ltBound x b = false) :
    ltBound y b = false := by
  cases b with
  | none => simp [ltBound] at hx
  | some q => simp only [ltBound, decide_eq_false_iff_not, not_lt] at *; linarith

theorem redistNode_loop {D : ℕ → ℕ → ℚ} {d : Option (ℕ → ℚ)} {C L : Option ℚ} {st : LSOPT}
    {bd : Option ℚ} (hyp : Triangle D ∨ bd = none) (n : ℕ) (rds0 : List RouteData) (tot0 : ℚ)
    (ps : List ℕ) (s : List RouteData × ℚ) (hps : ∀ i ∈ ps, i < s.1.length)
    (hok : ∀ rd ∈ s.1, RdOk D d C rd)
    (hinv : s = (rds0, tot0) ∨ ltBound (s.2 + S_EPS) bd = false) :
    ∃ s' b, forBreak ps s (fun i s => do
        let rd2 ← idx s.1 i
        match ← do_insert_move (.node n) rd2 D d C L st none with
        | none => pure (s, false)
        | some (rds, delta) => do
          let new_rd2 ← idx rds 1
          let s' := (s.1.set i new_rd2, s.2 + delta)
          pure (s', ltBound (s'.2 + S_EPS) bd)) = .ok (s', b) ∧
      (b = true → ∃ delta, SetOne D d C L n rds0 s'.1 delta ∧ s'.2 = tot0 + delta) := by
  induction ps generalizing s with
  | nil => exact ⟨s, false, rfl, by simp⟩
  | cons i t ih =>
    obtain ⟨rds, tot⟩ := s
    have hi := hps i (by simp)
    simp only at hi
    have hget : rds[i]? = some rds[i] := List.getElem?_eq_getElem hi
    have hrd := hok rds[i] (List.getElem_mem hi)
    obtain ⟨r, e1, e2⟩ := insert_node (L := L) hrd st n
    rw [forBreak]
    simp only
    have hidx : idx rds i = .ok rds[i] := by unfold idx; rw [hget]
    rw [hidx]
    simp only [bind, Except.bind, e1]
    rcases r with _ | ⟨rds', delta⟩
    · exact ih (rds, tot) (fun j hj => hps j (List.mem_cons_of_mem _ hj)) hok hinv
    · obtain ⟨rd', rfl, hins⟩ := e2 rds' delta rfl
      simp only [idx, List.getElem?_cons_succ, List.getElem?_cons_zero, pure, Except.pure]
      cases hb : ltBound (tot + delta + S_EPS) bd
      · refine ih (rds.set i rd', tot + delta) ?_ ?_ (Or.inr hb)
        · intro j hj
          simpa using hps j (List.mem_cons_of_mem _ hj)
        · intro rd h
          rcases List.mem_or_eq_of_mem_set h with h | rfl
          · exact hok rd h
          · exact inserted_rdOk hins hrd
      · refine ⟨(rds.set i rd', tot + delta), true, rfl, fun _ => ?_⟩
        rcases hinv with h | h
        · simp only [Prod.mk.injEq] at h
          obtain ⟨rfl, rfl⟩ := h
          exact ⟨delta, ⟨i, rds[i], rd', hget, rfl, hins⟩, rfl⟩
        · exfalso
          rcases hyp with hD | rfl
          · have hd := inserted_nonneg hD hins hrd
            have := ltBound_mono (y := tot + delta + S_EPS) (by simp only; linarith) h
            rw [this] at hb; simp at hb
          · simp [ltBound] at h

theorem redistributeNode_spec {D : ℕ → ℕ → ℚ} {d : Option (ℕ → ℚ)} {C L : Option ℚ} {st : LSOPT}
    {bd : Option ℚ} (hyp : Triangle D ∨ bd = none) (n : ℕ) (s : List RouteData × ℚ)
    (hok : ∀ rd ∈ s.1, RdOk D d C rd) :
    ∃ s' b, redistributeNode D d C L st bd n s = .ok (s', b) ∧
      (b = true → ∃ delta, SetOne D d C L n s.1 s'.1 delta ∧ s'.2 = s.2 + delta) :=
  redistNode_loop hyp n s.1 s.2 (List.range s.1.length) s (fun i hi => List.mem_range.1 hi) hok
    (Or.inl rfl)

/-! ## composition -/

theorem total_append (D : ℕ → ℕ → ℚ) (a b : List (List ℕ)) :
    total D (a ++ b) = total D a + total D b := by simp [total]

theorem total_cons (D : ℕ → ℕ → ℚ) (a : List ℕ) (b : List (List ℕ)) :
    total D (a :: b) = cost D a + total D b := by simp [total]

theorem set_split {α : Type} {l : List α} {i : ℕ} {a : α} (h : l[i]? = some a) :
    ∃ A B, l = A ++ a :: B ∧ ∀ b, l.set i b = A ++ b :: B := by
  obtain ⟨hi, rfl⟩ := List.getElem?_eq_some_iff.1 h
  refine ⟨l.take i, l.drop (i + 1), ?_, ?_⟩
  · rw [← List.drop_eq_getElem_cons hi, List.take_append_drop]
  · intro b; rw [List.set_eq_take_append_cons_drop, if_pos hi]

theorem received_one {D : ℕ → ℕ → ℚ} {d : Option (ℕ → ℚ)} {C L : Option ℚ} {n : ℕ}
    {rds rds' : List RouteData} {delta : ℚ} (hok : ∀ rd ∈ rds, RdOk D d C rd)
    (h : SetOne D d C L n rds rds' delta) :
    Received D d C L [n] rds rds' delta ∧ ∀ rd ∈ rds', RdOk D d C rd := by
  obtain ⟨i, rd, rd', h1, rfl, hins⟩ := h
  obtain ⟨A, B, rfl, hset⟩ := set_split h1
  rw [hset rd']
  have hall : ∀ rd0 ∈ A ++ rd' :: B, RdOk D d C rd0 := by
    intro rd0 h0
    rcases List.mem_append.1 h0 with h0 | h0
    · exact hok rd0 (by simp [h0])
    · rcases List.mem_cons.1 h0 with rfl | h0
      · exact inserted_rdOk hins (hok rd (by simp))
      · exact hok rd0 (by simp [h0])
  refine ⟨⟨?_, ?_, fun rd0 h0 => ⟨(hall rd0 h0).1, (hall rd0 h0).2.2⟩, ?_, ?_⟩, hall⟩
  · refine List.rel_append ?_ (List.Forall₂.cons hins.1 ?_)
    · exact List.forall₂_same.2 (fun _ _ => List.Sublist.refl _)
    · exact List.forall₂_same.2 (fun _ _ => List.Sublist.refl _)
  · simp only [List.map_append, List.map_cons, List.flatten_append, List.flatten_cons]
    have hp := hins.2.1
    rw [List.perm_iff_count] at hp ⊢
    intro a
    have := hp a
    simp only [List.count_append] at this ⊢
    omega
  · simp only [List.map_append, List.map_cons, total_append, total_cons, hins.2.2.2.2.1]
    ring
  · intro hf r hr
    simp only [List.map_append, List.map_cons, List.mem_append, List.mem_cons] at hr
    rcases hr with hr | rfl | hr
    · exact hf r (by simp only [List.map_append, List.mem_append]; exact Or.inl hr)
    · exact ⟨hins.2.2.2.2.2.1, hins.2.2.2.2.2.2 (Or.inl (by simp))⟩
    · exact hf r (by simp only [List.map_append, List.map_cons, List.mem_append, List.mem_cons]
                     exact Or.inr (Or.inr hr))

theorem received_trans {D : ℕ → ℕ → ℚ} {d : Option (ℕ → ℚ)} {C L : Option ℚ} {ns ms : List ℕ}
    {r1 r2 r3 : List RouteData} {x y : ℚ} (h1 : Received D d C L ns r1 r2 x)
    (h2 : Received D d C L ms r2 r3 y) : Received D d C L (ns ++ ms) r1 r3 (x + y) := by
  obtain ⟨a1, a2, a3, a4, a5⟩ := h1
  obtain ⟨b1, b2, b3, b4, b5⟩ := h2
  refine ⟨?_, ?_, b3, by rw [b4, a4]; ring, fun h => b5 (a5 h)⟩
  · clear a2 a3 a4 a5 b2 b3 b4 b5
    induction a1 generalizing r3 with
    | nil => cases b1; exact .nil
    | cons h t ih => cases b1 with
      | cons h' t' => exact .cons (h.trans h') (ih t')
  · refine b2.trans ?_
    refine (a2.append_left ms).trans ?_
    rw [← List.append_assoc]
    exact List.perm_append_comm.append_right _

theorem redistributeAll_spec {D : ℕ → ℕ → ℚ} {d : Option (ℕ → ℚ)} {C L : Option ℚ} {st : LSOPT}
    {bd : Option ℚ} (hyp : Triangle D ∨ bd = none) (ns : List ℕ) (s : List RouteData × ℚ)
    (hok : ∀ rd ∈ s.1, RdOk D d C rd) :
    ∃ s' b, redistributeAll D d C L st bd ns s = .ok (s', b) ∧
      (b = true → ∃ delta, Received D d C L ns s.1 s'.1 delta ∧ s'.2 = s.2 + delta) := by
  induction ns generalizing s with
  | nil =>
    refine ⟨s, true, rfl, fun _ => ⟨0, ⟨?_, by simp, fun rd h => ⟨(hok rd h).1, (hok rd h).2.2⟩,
      by simp, fun h => h⟩, by simp⟩⟩
    exact List.forall₂_same.2 (fun _ _ => List.Sublist.refl _)
  | cons n t ih =>
    obtain ⟨s', b, e1, e2⟩ := redistributeNode_spec (L := L) (st := st) hyp n s hok
    rw [redistributeAll, e1]
    simp only [bind, Except.bind]
    cases b
    · exact ⟨s', false, rfl, by simp⟩
    · obtain ⟨delta, h1, h2⟩ := e2 rfl
      obtain ⟨k1, k2⟩ := received_one hok h1
      obtain ⟨s'', b', e3, e4⟩ := ih s' k2
      simp only [if_true]
      refine ⟨s'', b', e3, fun hb => ?_⟩
      obtain ⟨delta', k3, k4⟩ := e4 hb
      exact ⟨delta + delta', received_trans k1 k3, by rw [k4, h2]; ring⟩

theorem redistributeOrderings_spec {D : ℕ → ℕ → ℚ} {d : Option (ℕ → ℚ)} {C L : Option ℚ}
    {st : LSOPT} (ords : List (List ℕ × List RouteData))
    (hok : ∀ o ∈ ords, ∀ rd ∈ o.2, RdOk D d C rd)
    (s : Option ℚ × Option (List RouteData)) (hyp : Triangle D ∨ (s.1 = none ∧ ords.length ≤ 1)) :
    ∃ s', redistributeOrderings D d C L st ords s = .ok s' ∧
      (s' = s ∨ ∃ o ∈ ords, ∃ rds x, s' = (some x, some rds) ∧ Received D d C L o.1 o.2 rds x ∧
        ltBound x s.1 = true) := by
  induction ords generalizing s with
  | nil => exact ⟨s, rfl, Or.inl rfl⟩
  | cons o t ih =>
    obtain ⟨cs, rs⟩ := o
    have hyp1 : Triangle D ∨ s.1 = none := by tauto
    obtain ⟨⟨rds, x⟩, b, e1, e2⟩ := redistributeAll_spec (L := L) (st := st) hyp1 cs (rs, 0)
      (hok (cs, rs) (by simp))
    have hok' : ∀ o ∈ t, ∀ rd ∈ o.2, RdOk D d C rd := fun o ho => hok o (List.mem_cons_of_mem _ ho)
    have hyp2 : ∀ s' : Option ℚ × Option (List RouteData), Triangle D ∨ t = [] ∨ s'.1 ≠ none := by
      intro s'
      rcases hyp with h | ⟨_, h⟩
      · left; exact h
      · right; left; simp at h; exact h
    rw [redistributeOrderings, e1]
    simp only [bind, Except.bind]
    have fin : ∀ s2 : Option ℚ × Option (List RouteData),
        ∃ s', redistributeOrderings D d C L st t s2 = .ok s' ∧ (s' = s2 ∨ ∃ o ∈ t, ∃ rds x,
          s' = (some x, some rds) ∧ Received D d C L o.1 o.2 rds x ∧ ltBound x s2.1 = true) := by
      intro s2
      rcases hyp with h | ⟨_, h⟩
      · exact ih hok' s2 (Or.inl h)
      · simp at h; subst h; exact ⟨s2, rfl, Or.inl rfl⟩
    split_ifs with hb
    · simp only [Bool.and_eq_true] at hb
      obtain ⟨rfl, hlt⟩ := hb
      obtain ⟨delta, k1, k2⟩ := e2 rfl
      simp only [zero_add] at k2
      subst k2
      obtain ⟨s', g1, g2⟩ := fin (some x, some rds)
      refine ⟨s', g1, Or.inr ?_⟩
      rcases g2 with rfl | ⟨o, ho, rds', y, k3, k4, k5⟩
      · exact ⟨(cs, rs), by simp, rds, x, rfl, k1, hlt⟩
      · refine ⟨o, List.mem_cons_of_mem _ ho, rds', y, k3, k4, ?_⟩
        have hyx : y < x := by simpa [ltBound] using k5
        cases h : s.1 with
        | none => rfl
        | some q => rw [h] at hlt; simp only [ltBound, decide_eq_true_eq] at *; linarith
    · obtain ⟨s', g1, g2⟩ := fin s
      refine ⟨s', g1, ?_⟩
      rcases g2 with h | ⟨o, ho, rds', y, k3, k4⟩
      · exact Or.inl h
      · exact Or.inr ⟨o, List.mem_cons_of_mem _ ho, rds', y, k3, k4⟩

/-! ## orderings -/

theorem pyPermsAux_perm {α : Type} (k : ℕ) (l : List α) (hk : k = l.length) :
    ∀ p ∈ pyPermsAux k l, p.Perm l := by
  induction k generalizing l with
  | zero =>
    intro p hp
    have : l = [] := List.length_eq_zero_iff.1 hk.symm
    subst this
    simp [pyPermsAux] at hp
    subst hp; rfl
  | succ k ih =>
    intro p hp
    simp only [pyPermsAux, List.mem_flatMap, List.mem_range] at hp
    obtain ⟨i, hi, hp⟩ := hp
    rw [List.getElem?_eq_getElem hi] at hp
    simp only [List.mem_map] at hp
    obtain ⟨q, hq, rfl⟩ := hp
    have := ih (l.eraseIdx i) (by rw [List.length_eraseIdx, if_pos hi]; omega) q hq
    refine (this.cons _).trans ?_
    exact List.getElem_cons_eraseIdx_perm hi

theorem pyPermutations_perm {α : Type} (l : List α) : ∀ p ∈ pyPermutations l, p.Perm l :=
  pyPermsAux_perm _ _ rfl

theorem orderings_spec {level : ℕ} {cs : List ℕ} {rs : List RouteData}
    {ords : List (List ℕ × List RouteData)} (h : orderings level cs rs = .ok ords) :
    (∀ o ∈ ords, o.1.Perm cs ∧ o.2.Perm rs ∧ (level ≤ 1 → o.2 = rs)) ∧
      (level = 0 → ords.length ≤ 1) := by
  unfold orderings at h
  split at h
  · simp only [Except.ok.injEq] at h; subst h; simp
  · simp only [Except.ok.injEq] at h; subst h
    refine ⟨?_, by simp⟩
    intro o ho
    simp only [List.mem_map] at ho
    obtain ⟨c, hc, rfl⟩ := ho
    exact ⟨pyPermutations_perm _ _ hc, List.Perm.refl _, fun _ => rfl⟩
  · simp only [Except.ok.injEq] at h; subst h
    refine ⟨?_, by simp⟩
    intro o ho
    simp only [List.mem_map] at ho
    obtain ⟨c, hc, rfl⟩ := ho
    exact ⟨List.Perm.refl _, pyPermutations_perm _ _ hc, by omega⟩
  · simp only [Except.ok.injEq] at h; subst h
    refine ⟨?_, by simp⟩
    intro o ho
    simp only [List.mem_flatMap, List.mem_map] at ho
    obtain ⟨c, hc, r, hr, rfl⟩ := ho
    exact ⟨pyPermutations_perm _ _ hc, pyPermutations_perm _ _ hr, by omega⟩
  · simp at h

theorem slackSum_ok {D : ℕ → ℕ → ℚ} {d : Option (ℕ → ℚ)} {C : Option ℚ} (hC : InUse C) (c : ℚ)
    (rds : List RouteData) (hok : ∀ rd ∈ rds, RdOk D d C rd) : ∃ x, slackSum c rds = .ok x := by
  induction rds with
  | nil => exact ⟨_, rfl⟩
  | cons rd t ih =>
    obtain ⟨x, hx⟩ := ih (fun r hr => hok r (List.mem_cons_of_mem _ hr))
    rw [slackSum, book_demand (hok rd (by simp)).2.2 hC, hx]
    exact ⟨_, rfl⟩

theorem do_redistribute_spec {D : ℕ → ℕ → ℚ} {d : Option (ℕ → ℚ)} {C L : Option ℚ} {st : LSOPT}
    {bd : Option ℚ} {level : ℕ} (hl : level ≤ 3) {rd1 : RouteData} {routes : List RouteData}
    (hok1 : RdOk D d C rd1) (hok : ∀ rd ∈ routes, RdOk D d C rd)
    (hyp : Triangle D ∨ (truthy bd = false ∧ level = 0)) :
    ∃ r, do_redistribute_move rd1 routes D d C L st bd level = .ok r ∧
      ∀ rds x, r = some (rds, x) → ∃ cs routes' rds', rds = RouteData.new :: rds' ∧
        cs.Perm rd1.route.tail.dropLast ∧ routes'.Perm routes ∧ (level ≤ 1 → routes' = routes) ∧
        Received D d C L cs routes' rds' x ∧ (∀ b, bd = some b → b ≠ 0 → x < b) := by
  unfold do_redistribute_move
  have hroom : ∃ v, noRoom rd1 routes C = .ok v := by
    unfold noRoom
    cases hC : C with
    | none => exact ⟨_, rfl⟩
    | some c =>
      simp only
      split_ifs with h0
      · exact ⟨_, rfl⟩
      · have hu : InUse C := ⟨c, hC, h0⟩
        obtain ⟨x, hx⟩ := slackSum_ok hu c routes hok
        rw [hx, book_demand hok1.2.2 hu]
        exact ⟨_, rfl⟩
  obtain ⟨v, hv⟩ := hroom
  rw [hv]
  simp only [bind, Except.bind]
  split_ifs with hvt hbd
  · exact ⟨none, rfl, by simp⟩
  all_goals
    obtain ⟨ords, ho⟩ : ∃ ords, orderings level rd1.route.tail.dropLast routes = .ok ords := by
      rcases level with _ | _ | _ | _ | _
      · exact ⟨_, rfl⟩
      · exact ⟨_, rfl⟩
      · exact ⟨_, rfl⟩
      · exact ⟨_, rfl⟩
      · omega
    rw [ho]
    simp only
    obtain ⟨o1, o2⟩ := orderings_spec ho
    have hoko : ∀ o ∈ ords, ∀ rd ∈ o.2, RdOk D d C rd :=
      fun o h rd hrd => hok rd ((o1 o h).2.1.subset hrd)
  · have hyp' : Triangle D ∨ (bd = none ∧ ords.length ≤ 1) := by
      rcases hyp with h | ⟨h, _⟩
      · exact Or.inl h
      · rw [h] at hbd; simp at hbd
    obtain ⟨s', e1, e2⟩ := redistributeOrderings_spec (L := L) (st := st) ords hoko (bd, none) hyp'
    rw [e1]
    rcases e2 with rfl | ⟨o, hmem, rds, x, rfl, k1, k2⟩
    · refine ⟨none, ?_, by simp⟩
      cases bd <;> rfl
    · refine ⟨_, rfl, ?_⟩
      rintro rds' x' h
      simp only [Option.some.injEq, Prod.mk.injEq] at h
      obtain ⟨rfl, rfl⟩ := h
      refine ⟨o.1, o.2, rds, rfl, (o1 o hmem).1, (o1 o hmem).2.1, (o1 o hmem).2.2, k1, ?_⟩
      rintro b rfl -
      simpa [ltBound] using k2
  · have hyp' : Triangle D ∨ ((none : Option ℚ) = none ∧ ords.length ≤ 1) := by
      rcases hyp with h | ⟨_, h⟩
      · exact Or.inl h
      · exact Or.inr ⟨rfl, o2 h⟩
    obtain ⟨s', e1, e2⟩ := redistributeOrderings_spec (L := L) (st := st) ords hoko (none, none) hyp'
    rw [e1]
    rcases e2 with rfl | ⟨o, hmem, rds, x, rfl, k1, k2⟩
    · exact ⟨none, rfl, by simp⟩
    · refine ⟨_, rfl, ?_⟩
      rintro rds' x' h
      simp only [Option.some.injEq, Prod.mk.injEq] at h
      obtain ⟨rfl, rfl⟩ := h
      refine ⟨o.1, o.2, rds, rfl, (o1 o hmem).1, (o1 o hmem).2.1, (o1 o hmem).2.2, k1, ?_⟩
      rintro b rfl hb
      simp [truthy, hb] at hbd

end Verif
