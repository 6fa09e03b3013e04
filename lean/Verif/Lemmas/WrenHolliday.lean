import Verif.Model.WrenHolliday
import Verif.Spec.WrenHolliday
import Verif.Lemmas.Redistribute

/-! # Lemmas for the complain procedure -/

namespace Verif
open Spec

theorem interior_wrap (cs : List ℕ) : interior (wrap cs) = cs := by
  simp [interior, wrap]

theorem wrap_of_depotEnds {r : List ℕ} (h : DepotEnds r) (h2 : 2 ≤ r.length) : ∃ cs, r = wrap cs := by
  obtain ⟨h0, h1⟩ := h
  cases r with
  | nil => simp at h2
  | cons a t =>
    simp only [List.head?_cons, Option.some.injEq] at h0
    subst h0
    have ht : t ≠ [] := by rintro rfl; simp at h2
    obtain ⟨x, y, -, hy⟩ := ends ht
    rw [List.getLast?_cons, hy] at h1
    simp only [Option.getD_some, Option.some.injEq] at h1
    subst h1
    refine ⟨t.dropLast, ?_⟩
    rw [wrap]
    have := List.dropLast_append_getLast? 0 hy
    rw [this]

theorem good_rdOk {D : ℕ → ℕ → ℚ} {d : Option (ℕ → ℚ)} {C : Option ℚ} {rd : RouteData}
    (h : GoodRd D d C rd) : RdOk D d C rd := by
  obtain ⟨⟨cs, e⟩, b⟩ := h
  exact ⟨e ▸ depotEnds_wrap cs, by rw [e]; simp [wrap], b⟩

theorem wrap_split {A B cs : List ℕ} {m : ℕ} (hA : A ≠ []) (hB : B ≠ []) (h : wrap cs = A ++ [m] ++ B) :
    ∃ A' B', cs = A' ++ [m] ++ B' ∧ ∀ n, A ++ [n] ++ B = wrap (A' ++ [n] ++ B') := by
  cases A with
  | nil => exact absurd rfl hA
  | cons a A =>
    obtain ⟨B, b, rfl⟩ : ∃ B' b, B = B' ++ [b] := ⟨B.dropLast, B.getLast hB, (List.dropLast_append_getLast hB).symm⟩
    simp only [wrap, List.cons_append, List.cons.injEq] at h
    obtain ⟨rfl, h⟩ := h
    have h' : cs ++ [0] = (A ++ [m] ++ B) ++ [b] := by rw [h]; simp
    have := List.append_inj' h' rfl
    obtain ⟨rfl, hb⟩ := this
    simp only [List.cons.injEq, and_true] at hb
    subst hb
    exact ⟨A, B, rfl, fun n => by simp [wrap]⟩

/-- The tests of a replacement. -/
theorem complainCheck_spec {D : ℕ → ℕ → ℚ} {d : Option (ℕ → ℚ)} {C L : Option ℚ} {rd : RouteData}
    (h : Book D d C rd) (n : ℕ) {A B : List ℕ} {m : ℕ} (hA : A ≠ []) (hB : B ≠ [])
    (hr : rd.route = A ++ [m] ++ B) :
    ∃ r, complainCheck D d C L n rd A.length = .ok r ∧
      (r = none → ¬ Fits D d C L (A ++ [n] ++ B)) ∧
      ∀ m' t q, r = some (m', t, q) → m' = m ∧ Fits D d C L (A ++ [n] ++ B) ∧
        t = replaceDelta D n A m B ∧
        Book D d C ⟨A ++ [n] ++ B, rd.cost + t, some q⟩ := by
  obtain ⟨a0, a, ha0, ha⟩ := ends hA
  obtain ⟨b, b0, hb, hb0⟩ := ends hB
  have lA := List.length_pos_iff.2 hA
  have lB := List.length_pos_iff.2 hB
  have e1 : idx rd.route (A.length - 1) = .ok a := by
    rw [idx, hr, List.append_assoc, List.getElem?_append_left (by omega), ← List.getLast?_eq_getElem?, ha]
  have e2 : idx rd.route A.length = .ok m := by
    rw [idx, hr, List.append_assoc, List.getElem?_append_right (by omega)]; simp
  have e3 : idx rd.route (A.length + 1) = .ok b := by
    rw [idx, hr, List.getElem?_append_right (by simp)]
    rw [List.head?_eq_getElem?] at hb
    simp [hb]
  have hq : rq d (A ++ [n] ++ B) = rq d rd.route - dq d m + dq d n := by
    rw [hr]; simp only [rq_append, rq_single]; ring
  have hc := cost_replace (D := D) (A := A) (B := B) (n := m) (m := n) ha hb
  rw [← hr] at hc
  have hdel : D a n + D n b - D a m - D m b = replaceDelta D n A m B := by
    rw [replaceDelta, ← hr, hc]; ring
  have key : ∃ q, complainDemand d C n rd m = .ok q ∧ (InUse C → q = rq d (A ++ [n] ++ B)) := by
    unfold complainDemand
    by_cases ht : truthy C = true
    · rw [if_pos ht, book_demand h (truthy_iff.1 ht), book_dem h (truthy_iff.1 ht),
        book_dem h (truthy_iff.1 ht)]
      exact ⟨_, rfl, fun _ => hq.symm⟩
    · rw [if_neg ht]
      exact ⟨0, rfl, fun h => absurd (truthy_iff.2 h) ht⟩
  obtain ⟨q, hq1, hq2⟩ := key
  have hex : exceeds C C_EPS q = false ↔ FitsC d C C_EPS (A ++ [n] ++ B) := by
    rw [fitsC_iff h]
    by_cases ht : truthy C = true
    · rw [hq2 (truthy_iff.1 ht)]
    · rw [exceeds_truthy (by simpa using ht), exceeds_truthy (by simpa using ht)]
  have hexL : exceeds L S_EPS (rd.cost + (D a n + D n b - D a m - D m b)) = false ↔
      FitsL D L S_EPS (A ++ [n] ++ B) := by
    rw [fitsL_iff, h.1, hc]
    have : cost D rd.route + (D a n + D n b - D a m - D m b) =
      cost D rd.route + (-D a m - D m b + D a n + D n b) := by ring
    rw [this]
  unfold complainCheck
  rw [e1, e2, e3]
  simp only [bind, Except.bind]
  rw [hq1]
  simp only
  by_cases h1 : exceeds C C_EPS q = true
  · rw [if_pos h1]
    refine ⟨none, rfl, fun _ hf => ?_, by simp⟩
    rw [hex.2 hf.1] at h1; cases h1
  rw [if_neg h1]
  by_cases h2 : exceeds L S_EPS (rd.cost + (D a n + D n b - D a m - D m b)) = true
  · rw [if_pos h2]
    refine ⟨none, rfl, fun _ hf => ?_, by simp⟩
    rw [hexL.2 hf.2] at h2; cases h2
  rw [if_neg h2]
  refine ⟨_, rfl, by simp, ?_⟩
  intro m' t q' he
  simp only [Option.some.injEq, Prod.mk.injEq] at he
  obtain ⟨rfl, rfl, rfl⟩ := he
  refine ⟨rfl, ⟨hex.1 (by simpa using h1), hexL.1 (by simpa using h2)⟩, hdel, ?_, ?_⟩
  · show rd.cost + _ = cost D (A ++ [n] ++ B)
    rw [h.1, hc]; ring
  · intro hC
    obtain ⟨f, rfl, -⟩ := h.2 hC
    exact ⟨f, rfl, by rw [hq2 hC]; rfl⟩

/-- The placement of a customer: it replaces another that goes to another route. -/
def Placed (D : ℕ → ℕ → ℚ) (d : Option (ℕ → ℚ)) (C L : Option ℚ) (n : ℕ) (rds rds' : List RouteData) : Prop :=
  ∃ k j rd1 rd2 A m B rd1' rd2' t, j ≠ k ∧ rds[k]? = some rd1 ∧ rds[j]? = some rd2 ∧
    rd1.route = A ++ [m] ++ B ∧ A ≠ [] ∧ B ≠ [] ∧ rd1'.route = A ++ [n] ++ B ∧ Book D d C rd1' ∧
    Fits D d C L rd1'.route ∧ Inserted D d C L [m] rd2 rd2' t ∧ rds' = (rds.set j rd2').set k rd1'

theorem complainFit_spec {D : ℕ → ℕ → ℚ} {d : Option (ℕ → ℚ)} {C L : Option ℚ} {rds : List RouteData}
    (h : ∀ rd ∈ rds, GoodRd D d C rd) (k m : ℕ) (rd1' : RouteData) (js : List ℕ)
    (hj : ∀ j ∈ js, j < rds.length) :
    ∃ r, complainFit D d C L rds k m rd1' js = .ok r ∧
      (r = none → ∀ j ∈ js, j ≠ k → ∀ rd2, rds[j]? = some rd2 → NoFit D d C L m rd2.route) ∧
      ∀ rds', r = some rds' → ∃ j rd2 rd2' t, j ≠ k ∧ rds[j]? = some rd2 ∧
        Inserted D d C L [m] rd2 rd2' t ∧ rds' = (rds.set j rd2').set k rd1' := by
  induction js with
  | nil => exact ⟨none, rfl, by simp, by simp⟩
  | cons j js ih =>
    obtain ⟨r, h1, h2, h3⟩ := ih (fun i hi => hj i (List.mem_cons_of_mem _ hi))
    rw [complainFit]
    by_cases hk : k = j
    · rw [if_pos hk, h1]
      refine ⟨r, rfl, ?_, h3⟩
      intro hr i hi hik rd2 hrd
      rcases List.mem_cons.1 hi with rfl | hi
      · exact absurd hk.symm hik
      · exact h2 hr i hi hik rd2 hrd
    rw [if_neg hk]
    have hl := hj j (by simp)
    rw [show idx rds j = .ok rds[j] by simp [idx, hl]]
    simp only
    have hg := good_rdOk (h _ (List.getElem_mem hl))
    obtain ⟨r', g1, g2⟩ := insert_node (L := L) hg .FIRST_ACCEPT m
    obtain ⟨r'', g3, g4, -⟩ := insert_one (L := L) hg.2.2 hg.1 hg.2.1 .FIRST_ACCEPT m
    rw [g1] at g3
    injection g3 with g3
    subst g3
    rw [g1]
    cases r' with
    | none =>
      simp only
      rw [h1]
      refine ⟨r, rfl, ?_, h3⟩
      intro hr i hi hik rd2 hrd
      rcases List.mem_cons.1 hi with rfl | hi
      · rw [List.getElem?_eq_getElem hl] at hrd
        injection hrd with hrd
        subst hrd
        intro E F hE hF e hf
        refine g4 rfl ?_ E F hE hF e hf.2
        intro f hd
        have := hf.1 f hd
        rw [show demand f (m :: rds[i].route) = demand f (E ++ [m] ++ F) from ?_]
        · exact this
        · rw [e]; simp [demand_append, demand_cons]; ring
      · exact h2 hr i hi hik rd2 hrd
    | some p =>
      obtain ⟨rs, t⟩ := p
      obtain ⟨rd', rfl, hi⟩ := g2 rs t rfl
      refine ⟨_, rfl, by simp, ?_⟩
      rintro rds' he
      injection he with he
      exact ⟨j, _, rd', t, fun e => hk e.symm, List.getElem?_eq_getElem hl, hi, he.symm⟩

/-- The best of the candidates `S` and of `b` is `b'`. -/
def Track (S : ℚ × ℕ × ℕ → Prop) (b b' : ComplainBest) : Prop :=
  (∀ x, b' = some x → b = some x ∨ S x) ∧ ∀ y, b = some y ∨ S y → ∃ x, b' = some x ∧ x.1 ≤ y.1

theorem track_none {S : ℚ × ℕ × ℕ → Prop} (b : ComplainBest) (h : ∀ x, ¬ S x) : Track S b b :=
  ⟨fun _ e => .inl e, fun y hy => by
    rcases hy with hy | hy
    · exact ⟨y, hy, le_rfl⟩
    · exact absurd hy (h y)⟩

theorem track_trans {S T U : ℚ × ℕ × ℕ → Prop} {b b' b'' : ComplainBest} (h : Track S b b')
    (h' : Track T b' b'') (hU : ∀ x, U x ↔ S x ∨ T x) : Track U b b'' := by
  constructor
  · intro x hx
    rcases h'.1 x hx with hx | hx
    · rcases h.1 x hx with hx | hx
      · exact .inl hx
      · exact .inr ((hU x).2 (.inl hx))
    · exact .inr ((hU x).2 (.inr hx))
  · intro y hy
    have hy' : (b = some y ∨ S y) ∨ T y := by
      rcases hy with hy | hy
      · exact .inl (.inl hy)
      · rcases (hU y).1 hy with hy | hy
        · exact .inl (.inr hy)
        · exact .inr hy
    rcases hy' with hy | hy
    · obtain ⟨x, hx, hl⟩ := h.2 y hy
      obtain ⟨z, hz, hl'⟩ := h'.2 x (.inl hx)
      exact ⟨z, hz, hl'.trans hl⟩
    · exact h'.2 y (.inr hy)

theorem track_one {x : ℚ × ℕ × ℕ} (b : ComplainBest) :
    Track (fun y => y = x) b (complainKeep x b) := by
  unfold complainKeep
  cases b with
  | none =>
    refine ⟨fun y e => ?_, ?_⟩
    · injection e with e; exact .inr e.symm
    · rintro y (hy | rfl)
      · cases hy
      · exact ⟨_, rfl, le_rfl⟩
  | some c =>
    simp only
    by_cases h : x.1 < c.1
    · rw [if_pos h]
      refine ⟨fun y e => ?_, ?_⟩
      · injection e with e; exact .inr e.symm
      · rintro y (hy | rfl)
        · injection hy with hy; subst hy; exact ⟨_, rfl, h.le⟩
        · exact ⟨_, rfl, le_rfl⟩
    · rw [if_neg h]
      refine ⟨fun y e => .inl e, ?_⟩
      rintro y (hy | rfl)
      · exact ⟨y, hy, le_rfl⟩
      · exact ⟨c, rfl, not_lt.1 h⟩

/-- The candidate replacements on the routes with a position in `P`. -/
def Cand (D : ℕ → ℕ → ℚ) (d : Option (ℕ → ℚ)) (C L : Option ℚ) (rds : List RouteData) (n : ℕ)
    (P : ℕ → ℕ → Prop) (x : ℚ × ℕ × ℕ) : Prop :=
  P x.2.1 x.2.2 ∧ ∃ A m B, CanReplace D d C L (rds.map (·.route)) n x.2.1 A m B ∧ A.length = x.2.2 ∧
    x.1 = replaceDelta D n A m B

/-- No replacement with a position in `P` can be followed by an insertion. -/
def Stuck (D : ℕ → ℕ → ℚ) (d : Option (ℕ → ℚ)) (C L : Option ℚ) (rds : List RouteData) (n : ℕ)
    (P : ℕ → ℕ → Prop) : Prop :=
  ∀ k A m B, P k A.length → CanReplace D d C L (rds.map (·.route)) n k A m B → ∀ j r, j ≠ k →
    (rds.map (·.route))[j]? = some r → NoFit D d C L m r

theorem split_at {r : List ℕ} {i : ℕ} (h1 : 1 ≤ i) (h2 : i + 1 < r.length) :
    r = r.take i ++ [r[i]] ++ r.drop (i + 1) ∧ r.take i ≠ [] ∧ r.drop (i + 1) ≠ [] ∧ (r.take i).length = i := by
  refine ⟨by simp, ?_, ?_, by rw [List.length_take]; omega⟩
  · intro e; have := congrArg List.length e; simp only [List.length_take, List.length_nil] at this; omega
  · intro e; have := congrArg List.length e; simp only [List.length_drop, List.length_nil] at this; omega

theorem split_unique {A B A' B' : List ℕ} {m m' : ℕ} (h : A ++ [m] ++ B = A' ++ [m'] ++ B')
    (hl : A.length = A'.length) : A = A' ∧ m = m' ∧ B = B' := by
  rw [List.append_assoc, List.append_assoc] at h
  obtain ⟨h1, h2⟩ := List.append_inj h hl
  simp only [List.singleton_append, List.cons.injEq] at h2
  exact ⟨h1, h2.1, h2.2⟩

theorem complainPos_spec {D : ℕ → ℕ → ℚ} {d : Option (ℕ → ℚ)} {C L : Option ℚ} {rds : List RouteData}
    (h : ∀ rd ∈ rds, GoodRd D d C rd) (n k : ℕ) {rd1 : RouteData} (hk : rds[k]? = some rd1) (is : List ℕ)
    (hi : ∀ i ∈ is, 1 ≤ i ∧ i + 1 < rd1.route.length) (b : ComplainBest) :
    ∃ b' r, complainPos D d C L rds n k rd1 is b = .ok (b', r) ∧
      (r = none → Track (Cand D d C L rds n fun k' i => k' = k ∧ i ∈ is) b b' ∧
        Stuck D d C L rds n fun k' i => k' = k ∧ i ∈ is) ∧
      ∀ rds', r = some rds' → Placed D d C L n rds rds' := by
  have hkr : (rds.map (·.route))[k]? = some rd1.route := by simp [hk]
  induction is generalizing b with
  | nil =>
    refine ⟨b, none, rfl, fun _ => ⟨track_none b ?_, ?_⟩, by simp⟩
    · rintro x ⟨⟨-, hx⟩, -⟩; cases hx
    · rintro k A m B ⟨-, hx⟩; cases hx
  | cons i is ih =>
    have ih := ih (fun i' h' => hi i' (List.mem_cons_of_mem _ h'))
    obtain ⟨i1, i2⟩ := hi i (by simp)
    obtain ⟨s1, s2, s3, s4⟩ := split_at i1 i2
    generalize rd1.route.take i = A at s1 s2 s4
    generalize rd1.route[i] = m at s1
    have hd : rd1.route.drop (i + 1) = rd1.route.drop (i + 1) := rfl
    generalize hB : rd1.route.drop (i + 1) = B at s1 s3
    subst s4
    have hTa : rd1.route.take A.length = A := by rw [s1, List.append_assoc]; simp
    have hg := h rd1 (List.mem_of_getElem? hk)
    obtain ⟨r, c1, c2, c3⟩ := complainCheck_spec (L := L) hg.2 n s2 s3 s1
    have huniq : ∀ k' A' m' B', k' = k → A'.length = A.length →
        CanReplace D d C L (rds.map (·.route)) n k' A' m' B' → A' = A ∧ m' = m ∧ B' = B ∧
          Fits D d C L (A ++ [n] ++ B) := by
      rintro k' A' m' B' rfl hl hc
      have := hc.1
      rw [hkr] at this
      injection this with this
      rw [s1] at this
      obtain ⟨rfl, rfl, rfl⟩ := split_unique this hl.symm
      exact ⟨rfl, rfl, rfl, hc.2.2.2⟩
    rw [complainPos, c1]
    cases r with
    | none =>
      simp only
      obtain ⟨b', r', e1, e2, e3⟩ := ih b
      refine ⟨b', r', e1, fun hr => ?_, e3⟩
      obtain ⟨t1, t2⟩ := e2 hr
      have hno := c2 rfl
      constructor
      · refine track_trans (track_none b (S := fun _ => False) (fun _ h => h)) t1 ?_
        intro x
        simp only [false_or]
        constructor
        · rintro ⟨⟨p1, p2⟩, A', m', B', q1, q2, q3⟩
          rcases List.mem_cons.1 p2 with p2 | p2
          · exact absurd (huniq _ A' m' B' p1 (q2.trans p2) q1).2.2.2 hno
          · exact ⟨⟨p1, p2⟩, A', m', B', q1, q2, q3⟩
        · rintro ⟨⟨p1, p2⟩, q⟩
          exact ⟨⟨p1, List.mem_cons_of_mem _ p2⟩, q⟩
      · rintro k' A' m' B' ⟨p1, p2⟩ q1
        rcases List.mem_cons.1 p2 with p2 | p2
        · exact absurd (huniq _ A' m' B' p1 p2 q1).2.2.2 hno
        · exact t2 k' A' m' B' ⟨p1, p2⟩ q1
    | some p =>
      obtain ⟨m', t, q⟩ := p
      obtain ⟨rfl, hf, rfl, hb⟩ := c3 m' t q rfl
      simp only
      obtain ⟨r', f1, f2, f3⟩ := complainFit_spec (L := L) h k m'
        ⟨rd1.route.take A.length ++ [n] ++ rd1.route.drop (A.length + 1), rd1.cost + replaceDelta D n A m' B, some q⟩
        (List.range rds.length) (fun j hj => List.mem_range.1 hj)
      rw [f1]
      have ht1 := track_one (x := (replaceDelta D n A m' B, k, A.length)) b
      cases r' with
      | some rds' =>
        refine ⟨_, some rds', rfl, by simp, ?_⟩
        rintro _ ⟨⟩
        obtain ⟨j, rd2, rd2', t, g1, g2, g3, g4⟩ := f3 rds' rfl
        exact ⟨k, j, rd1, rd2, A, m', B, _, rd2', t, g1, hk, g2, s1, s2, s3, by simp only [hTa, hB], by
          simpa only [hTa, hB] using hb, by simpa only [hTa, hB] using hf, g3, g4⟩
      | none =>
        simp only
        generalize complainKeep (replaceDelta D n A m' B, k, A.length) b = b1 at ht1 ⊢
        obtain ⟨b', r', e1, e2, e3⟩ := ih b1
        refine ⟨b', r', e1, fun hr => ?_, e3⟩
        obtain ⟨t1, t2⟩ := e2 hr
        constructor
        · refine track_trans ht1 t1 ?_
          intro x
          constructor
          · rintro ⟨⟨p1, p2⟩, A', m', B', q1, q2, q3⟩
            rcases List.mem_cons.1 p2 with p2 | p2
            · left
              obtain ⟨rfl, rfl, rfl, -⟩ := huniq _ A' m' B' p1 (q2.trans p2) q1
              obtain ⟨x1, x2, x3⟩ := x
              simp only at p1 q2 q3
              rw [p1, ← q2, q3]
            · exact .inr ⟨⟨p1, p2⟩, A', m', B', q1, q2, q3⟩
          · rintro (rfl | ⟨⟨p1, p2⟩, q⟩)
            · exact ⟨⟨rfl, by simp⟩, A, m', B, ⟨by rw [hkr, s1], s2, s3, hf⟩, rfl, rfl⟩
            · exact ⟨⟨p1, List.mem_cons_of_mem _ p2⟩, q⟩
        · rintro k' A' m'' B' ⟨p1, p2⟩ q1
          rcases List.mem_cons.1 p2 with p2 | p2
          · obtain ⟨rfl, rfl, rfl, -⟩ := huniq _ A' m'' B' p1 p2 q1
            intro j r hj hr
            obtain ⟨rd2, hrd, rfl⟩ := by simpa using hr
            exact f2 rfl j (List.mem_range.2 (List.getElem?_eq_some_iff.1 hrd).1) (p1 ▸ hj) rd2 hrd
          · exact t2 k' A' m'' B' ⟨p1, p2⟩ q1

theorem complainRoutes_spec {D : ℕ → ℕ → ℚ} {d : Option (ℕ → ℚ)} {C L : Option ℚ} {rds : List RouteData}
    (h : ∀ rd ∈ rds, GoodRd D d C rd) (n : ℕ) (ks : List ℕ) (hks : ∀ k ∈ ks, k < rds.length) (b : ComplainBest) :
    ∃ b' r, complainRoutes D d C L rds n ks b = .ok (b', r) ∧
      (r = none → Track (Cand D d C L rds n fun k _ => k ∈ ks) b b' ∧
        Stuck D d C L rds n fun k _ => k ∈ ks) ∧
      ∀ rds', r = some rds' → Placed D d C L n rds rds' := by
  induction ks generalizing b with
  | nil =>
    refine ⟨b, none, rfl, fun _ => ⟨track_none b ?_, ?_⟩, by simp⟩
    · rintro x ⟨hx, -⟩; cases hx
    · rintro k A m B hx; cases hx
  | cons k ks ih =>
    have ih := ih (fun i' h' => hks i' (List.mem_cons_of_mem _ h'))
    have hk := hks k (by simp)
    have hk' : rds[k]? = some rds[k] := List.getElem?_eq_getElem hk
    generalize rds[k] = rd1 at hk'
    have hg := h rd1 (List.mem_of_getElem? hk')
    have hkr : (rds.map (·.route))[k]? = some rd1.route := by simp [hk']
    rw [complainRoutes, show idx rds k = .ok rd1 by rw [idx, hk']]
    simp only
    by_cases he : rd1.is_empty = true
    · rw [if_pos he]
      obtain ⟨b', r', e1, e2, e3⟩ := ih b
      refine ⟨b', r', e1, fun hr => ?_, e3⟩
      obtain ⟨t1, t2⟩ := e2 hr
      have hno : ∀ A m B, ¬ CanReplace D d C L (rds.map (·.route)) n k A m B := by
        rintro A m B ⟨q1, q2, q3, -⟩
        rw [hkr] at q1
        injection q1 with q1
        have lA := List.length_pos_iff.2 q2
        have lB := List.length_pos_iff.2 q3
        have := congrArg List.length q1
        simp [RouteData.is_empty] at he
        rcases he with he | he <;> (rw [he] at this; simp at this; try omega)
      constructor
      · refine track_trans (track_none b (S := fun _ => False) (fun _ h => h)) t1 ?_
        intro x
        simp only [false_or]
        constructor
        · rintro ⟨p1, A', m', B', q1, q2, q3⟩
          rcases List.mem_cons.1 p1 with p1 | p1
          · exact absurd (p1 ▸ q1) (hno A' m' B')
          · exact ⟨p1, A', m', B', q1, q2, q3⟩
        · rintro ⟨p1, q⟩
          exact ⟨List.mem_cons_of_mem _ p1, q⟩
      · rintro k' A' m' B' p1 q1
        rcases List.mem_cons.1 p1 with p1 | p1
        · exact absurd (p1 ▸ q1) (hno A' m' B')
        · exact t2 k' A' m' B' p1 q1
    · rw [if_neg he]
      have hrange : ∀ i, i ∈ pyRange 1 (rd1.route.length - 1) ↔ 1 ≤ i ∧ i + 1 < rd1.route.length := by
        intro i; simp only [pyRange, List.mem_range'_1]; omega
      obtain ⟨b1, r1, e1, e2, e3⟩ := complainPos_spec (L := L) h n k hk' (pyRange 1 (rd1.route.length - 1))
        (fun i hi => (hrange i).1 hi) b
      rw [e1]
      cases r1 with
      | some rds' => exact ⟨b1, some rds', rfl, by simp, e3⟩
      | none =>
        simp only
        obtain ⟨t1, t2⟩ := e2 rfl
        obtain ⟨b', r', e1, e2, e3⟩ := ih b1
        refine ⟨b', r', e1, fun hr => ?_, e3⟩
        obtain ⟨t3, t4⟩ := e2 hr
        have hpos : ∀ A m B, CanReplace D d C L (rds.map (·.route)) n k A m B →
            A.length ∈ pyRange 1 (rd1.route.length - 1) := by
          rintro A m B ⟨q1, q2, q3, -⟩
          rw [hkr] at q1
          injection q1 with q1
          have lA := List.length_pos_iff.2 q2
          have lB := List.length_pos_iff.2 q3
          rw [hrange, q1]
          simp; omega
        constructor
        · refine track_trans t1 t3 ?_
          intro x
          constructor
          · rintro ⟨p1, A', m', B', q1, q2, q3⟩
            rcases List.mem_cons.1 p1 with p1 | p1
            · exact .inl ⟨⟨p1, q2 ▸ hpos A' m' B' (p1 ▸ q1)⟩, A', m', B', q1, q2, q3⟩
            · exact .inr ⟨p1, A', m', B', q1, q2, q3⟩
          · rintro (⟨⟨p1, -⟩, q⟩ | ⟨p1, q⟩)
            · exact ⟨by rw [p1]; simp, q⟩
            · exact ⟨List.mem_cons_of_mem _ p1, q⟩
        · rintro k' A' m' B' p1 q1
          rcases List.mem_cons.1 p1 with p1 | p1
          · exact t2 k' A' m' B' ⟨p1, hpos A' m' B' (p1 ▸ q1)⟩ q1
          · exact t4 k' A' m' B' p1 q1

/-! ## What a step does -/

theorem served_set {rds : List RouteData} {k : ℕ} {rd : RouteData} (h : rds[k]? = some rd) (rd' : RouteData) :
    (interior rd.route ++ served (rds.set k rd')).Perm (interior rd'.route ++ served rds) := by
  induction rds generalizing k with
  | nil => simp at h
  | cons x rds ih =>
    cases k with
    | zero =>
      simp only [List.getElem?_cons_zero, Option.some.injEq] at h
      subst h
      simp only [List.set_cons_zero, served, List.flatMap_cons]
      rw [← List.append_assoc, ← List.append_assoc]
      exact List.perm_append_comm.append_right _
    | succ k =>
      simp only [List.getElem?_cons_succ] at h
      have := ih h
      simp only [List.set_cons_succ, served, List.flatMap_cons]
      simp only [served] at this
      refine (List.perm_append_comm_assoc _ _ _).trans ?_
      refine (this.append_left _).trans ?_
      exact List.perm_append_comm_assoc _ _ _

/-- What holds for the routes before and after. -/
def Keeps (D : ℕ → ℕ → ℚ) (d : Option (ℕ → ℚ)) (C L : Option ℚ) (rds rds' : List RouteData) : Prop :=
  rds'.length = rds.length ∧ (∀ rd ∈ rds', GoodRd D d C rd) ∧
    ((∀ rd ∈ rds, Fits D d C L rd.route) → ∀ rd ∈ rds', Fits D d C L rd.route)

theorem keeps_set {D : ℕ → ℕ → ℚ} {d : Option (ℕ → ℚ)} {C L : Option ℚ} {rds : List RouteData}
    (h : ∀ rd ∈ rds, GoodRd D d C rd) (k : ℕ) {rd' : RouteData} (hg : GoodRd D d C rd')
    (hf : Fits D d C L rd'.route) : Keeps D d C L rds (rds.set k rd') := by
  refine ⟨by simp, fun rd hr => ?_, fun hh rd hr => ?_⟩
  · rcases List.mem_or_eq_of_mem_set hr with hr | rfl
    · exact h rd hr
    · exact hg
  · rcases List.mem_or_eq_of_mem_set hr with hr | rfl
    · exact hh rd hr
    · exact hf

theorem keeps_trans {D : ℕ → ℕ → ℚ} {d : Option (ℕ → ℚ)} {C L : Option ℚ} {a b c : List RouteData}
    (h : Keeps D d C L a b) (h' : Keeps D d C L b c) : Keeps D d C L a c :=
  ⟨h'.1.trans h.1, h'.2.1, fun x => h'.2.2 (h.2.2 x)⟩

theorem replaced_good {D : ℕ → ℕ → ℚ} {d : Option (ℕ → ℚ)} {C : Option ℚ} {rd rd' : RouteData}
    (h : GoodRd D d C rd) {A B : List ℕ} {m n : ℕ} (hA : A ≠ []) (hB : B ≠ [])
    (hr : rd.route = A ++ [m] ++ B) (hr' : rd'.route = A ++ [n] ++ B) (hb : Book D d C rd') :
    GoodRd D d C rd' ∧ (m :: interior rd'.route).Perm (n :: interior rd.route) := by
  obtain ⟨⟨cs, e⟩, -⟩ := h
  obtain ⟨A', B', rfl, hw⟩ := wrap_split hA hB (e.symm.trans hr)
  rw [hw] at hr'
  refine ⟨⟨⟨_, hr'⟩, hb⟩, ?_⟩
  rw [hr', e, interior_wrap, interior_wrap]
  rw [List.perm_iff_count]; intro x; simp [List.count_append, List.count_cons]; omega

theorem inserted_good {D : ℕ → ℕ → ℚ} {d : Option (ℕ → ℚ)} {C L : Option ℚ} {rd rd' : RouteData} {m : ℕ} {t : ℚ}
    (h : GoodRd D d C rd) (hi : Inserted D d C L [m] rd rd' t) :
    GoodRd D d C rd' ∧ (interior rd'.route).Perm (m :: interior rd.route) ∧ Fits D d C L rd'.route := by
  have hk := inserted_rdOk hi (good_rdOk h)
  obtain ⟨cs', e'⟩ := wrap_of_depotEnds hk.1 hk.2.1
  obtain ⟨⟨cs, e⟩, -⟩ := h
  refine ⟨⟨⟨cs', e'⟩, hk.2.2⟩, ?_, hi.2.2.2.2.2.1, hi.2.2.2.2.2.2 (.inl (by simp))⟩
  have hp := hi.2.1
  rw [e', e, List.perm_iff_count] at hp
  rw [e', e, interior_wrap, interior_wrap, List.perm_iff_count]
  intro x
  have := hp x
  simp [wrap, List.count_append, List.count_cons] at this
  simp [List.count_cons]
  omega

theorem placed_spec {D : ℕ → ℕ → ℚ} {d : Option (ℕ → ℚ)} {C L : Option ℚ} {rds rds' : List RouteData} {n : ℕ}
    (h : ∀ rd ∈ rds, GoodRd D d C rd) (hp : Placed D d C L n rds rds') :
    Keeps D d C L rds rds' ∧ (served rds').Perm (n :: served rds) := by
  obtain ⟨k, j, rd1, rd2, A, m, B, rd1', rd2', t, h1, h2, h3, h4, h5, h6, h7, h8, h9, h10, rfl⟩ := hp
  obtain ⟨g1, g2⟩ := replaced_good (h rd1 (List.mem_of_getElem? h2)) h5 h6 h4 h7 h8
  obtain ⟨g3, g4, g5⟩ := inserted_good (h rd2 (List.mem_of_getElem? h3)) h10
  have k1 := keeps_set h j g3 g5
  have k2 := keeps_set k1.2.1 k g1 h9
  refine ⟨keeps_trans k1 k2, ?_⟩
  have p1 := served_set h3 rd2'
  have h2' : (rds.set j rd2')[k]? = some rd1 := by rw [List.getElem?_set_ne h1]; exact h2
  have p2 := served_set h2' rd1'
  rw [List.perm_iff_count] at p1 p2 g2 g4 ⊢
  intro x
  have q1 := p1 x
  have q2 := p2 x
  have q3 := g2 x
  have q4 := g4 x
  simp only [List.count_append, List.count_cons] at q1 q2 q3 q4 ⊢
  omega

/-- What the body of the loop does. -/
theorem complainNode_spec {D : ℕ → ℕ → ℚ} {d : Option (ℕ → ℚ)} {C L : Option ℚ} (n : ℕ) (s : ComplainState)
    (h : ∀ rd ∈ s.routes, GoodRd D d C rd) :
    ∃ s', complainNode D d C L n s = .ok s' ∧
      ((s' = s ∧ CannotPlace D d C L (s.routes.map (·.route)) n ∧
          (InUse C → NotWorth D d C L (s.routes.map (·.route)) n)) ∨
        (Keeps D d C L s.routes s'.routes ∧ s'.assigned = setAdd s.assigned n ∧ s'.improved = true ∧
          ((s'.omitted = s.omitted ∧ (served s'.routes).Perm (n :: served s.routes)) ∨
            ∃ m, s'.omitted = setAdd s.omitted m ∧ CannotPlace D d C L (s.routes.map (·.route)) n ∧
              (m :: served s'.routes).Perm (n :: served s.routes) ∧ ∃ f, d = some f ∧ f m < f n))) := by
  obtain ⟨b, r, e1, e2, e3⟩ := complainRoutes_spec (L := L) h n (List.range s.routes.length)
    (fun k hk => List.mem_range.1 hk) none
  rw [complainNode, e1]
  cases r with
  | some rds' =>
    obtain ⟨k1, k2⟩ := placed_spec h (e3 rds' rfl)
    exact ⟨_, rfl, .inr ⟨k1, rfl, rfl, .inl ⟨rfl, k2⟩⟩⟩
  | none =>
    obtain ⟨t1, t2⟩ := e2 rfl
    have hc : CannotPlace D d C L (s.routes.map (·.route)) n := by
      intro k A m B hcr
      refine t2 k A m B ?_ hcr
      have := (List.getElem?_eq_some_iff.1 hcr.1).1
      rw [List.length_map] at this
      exact List.mem_range.2 this
    have hcand : ∀ k A m B, CanReplace D d C L (s.routes.map (·.route)) n k A m B →
        Cand D d C L s.routes n (fun k _ => k ∈ List.range s.routes.length)
          (replaceDelta D n A m B, k, A.length) := by
      intro k A m B hcr
      have := (List.getElem?_eq_some_iff.1 hcr.1).1
      rw [List.length_map] at this
      exact ⟨List.mem_range.2 this, A, m, B, hcr, rfl, rfl⟩
    cases b with
    | none =>
      refine ⟨s, rfl, .inl ⟨rfl, hc, fun _ => .inl ?_⟩⟩
      intro k A m B hcr
      obtain ⟨x, hx, -⟩ := t1.2 _ (.inr (hcand k A m B hcr))
      cases hx
    | some x =>
      obtain ⟨t, k, i⟩ := x
      obtain ⟨c1, A, m, B, c2, c3, c4⟩ := (t1.1 _ rfl).resolve_left (by simp)
      simp only at c1 c2 c3 c4
      subst c3 c4
      obtain ⟨rd, hrd, hroute⟩ : ∃ rd, s.routes[k]? = some rd ∧ rd.route = A ++ [m] ++ B := by
        simpa using c2.1
      have hg := h rd (List.mem_of_getElem? hrd)
      have hTa : rd.route.take A.length = A := by rw [hroute, List.append_assoc]; simp
      have hDr : rd.route.drop (A.length + 1) = B := by
        rw [hroute, List.drop_append_of_le_length (by simp)]; simp
      have hm : idx rd.route A.length = .ok m := by
        rw [idx, hroute, List.append_assoc, List.getElem?_append_right (by omega)]; simp
      simp only
      rw [show idx s.routes k = .ok rd by rw [idx, hrd]]
      simp only [bind, Except.bind]
      rw [hm]
      simp only
      by_cases ht : truthy C = true
      · rw [if_pos ht]
        obtain ⟨f, rfl, hdem⟩ := hg.2.2 (truthy_iff.1 ht)
        simp only [dem, hdem, num]
        by_cases hlt : f n > f m
        · rw [if_pos hlt]
          simp only [hTa, hDr]
          have hb : Book D (some f) C ⟨A ++ [n] ++ B, rd.cost + replaceDelta D n A m B,
              some (demand f rd.route - f m + f n)⟩ := by
            refine ⟨?_, fun _ => ⟨f, rfl, ?_⟩⟩
            · show rd.cost + replaceDelta D n A m B = cost D (A ++ [n] ++ B)
              rw [hg.2.1, replaceDelta, hroute]; ring
            · show some _ = some _
              rw [hroute]; simp [demand_append]; ring
          obtain ⟨g1, g2⟩ := replaced_good hg c2.2.1 c2.2.2.1 hroute rfl hb
          refine ⟨_, rfl, .inr ⟨keeps_set h k g1 c2.2.2.2, rfl, rfl, .inr ⟨m, rfl, hc, ?_, f, rfl, hlt⟩⟩⟩
          have p1 := served_set hrd ⟨A ++ [n] ++ B, rd.cost + replaceDelta D n A m B,
              some (demand f rd.route - f m + f n)⟩
          rw [List.perm_iff_count] at p1 g2 ⊢
          intro x
          have q1 := p1 x
          have q2 := g2 x
          simp only [List.count_append, List.count_cons] at q1 q2 ⊢
          omega
        · rw [if_neg hlt]
          refine ⟨s, rfl, .inl ⟨rfl, hc, fun _ => .inr ⟨k, A, m, B, c2, ?_, ?_⟩⟩⟩
          · rintro f' ⟨⟩; exact not_lt.1 hlt
          · intro k' A' m' B' hcr
            obtain ⟨x, hx, hle⟩ := t1.2 _ (.inr (hcand k' A' m' B' hcr))
            injection hx with hx
            subst hx
            exact hle
      · rw [if_neg ht]
        exact ⟨s, rfl, .inl ⟨rfl, hc, fun hu => absurd (truthy_iff.2 hu) ht⟩⟩

/-- The state after the customers `P`. -/
def ComplainInv (D : ℕ → ℕ → ℚ) (d : Option (ℕ → ℚ)) (C L : Option ℚ) (rds : List RouteData) (P : List ℕ)
    (s : ComplainState) : Prop :=
  Keeps D d C L rds s.routes ∧ (∀ n ∈ s.assigned, n ∈ P) ∧
    (served s.routes ++ (P.filter (fun n => ! decide (n ∈ s.assigned)) ++ s.omitted)).Perm (served rds ++ P) ∧
    (served rds).length ≤ (served s.routes).length ∧
    (∀ f, d = some f → (∀ n, 0 ≤ f n) → demand f (served rds) ≤ demand f (served s.routes)) ∧
    (s.improved = false → s.routes = rds ∧ s.assigned = [] ∧ s.omitted = [] ∧
      ∀ n ∈ P, CannotPlace D d C L (rds.map (·.route)) n ∧
        (InUse C → NotWorth D d C L (rds.map (·.route)) n))

theorem complainInv_init {D : ℕ → ℕ → ℚ} {d : Option (ℕ → ℚ)} {C L : Option ℚ} {rds : List RouteData}
    (h : ∀ rd ∈ rds, GoodRd D d C rd) : ComplainInv D d C L rds [] ⟨rds, [], [], false⟩ :=
  ⟨⟨rfl, h, fun x => x⟩, by simp, by simp, le_rfl, fun _ _ _ => le_rfl, fun _ => ⟨rfl, rfl, rfl, by simp⟩⟩

theorem filter_setAdd {P a : List ℕ} {n : ℕ} (hn : n ∉ P) (ha : n ∉ a) :
    (P ++ [n]).filter (fun x => ! decide (x ∈ setAdd a n)) = P.filter (fun x => ! decide (x ∈ a)) := by
  rw [setAdd, if_neg ha, List.filter_append]
  have : ([n].filter fun x => ! decide (x ∈ a ++ [n])) = [] := by simp
  rw [this, List.append_nil]
  apply List.filter_congr
  intro x hx
  have : x ≠ n := fun e => hn (e ▸ hx)
  simp [this]

theorem complainInv_step {D : ℕ → ℕ → ℚ} {d : Option (ℕ → ℚ)} {C L : Option ℚ} {rds : List RouteData}
    {P : List ℕ} {n : ℕ} (hnd : (served rds ++ (P ++ [n])).Nodup) {s : ComplainState}
    (h : ComplainInv D d C L rds P s) :
    ∃ s', complainNode D d C L n s = .ok s' ∧ ComplainInv D d C L rds (P ++ [n]) s' := by
  obtain ⟨h1, h2, h3, h4, h6, h5⟩ := h
  obtain ⟨s', e, hs⟩ := complainNode_spec (L := L) n s h1.2.1
  refine ⟨s', e, ?_⟩
  have hnP : n ∉ served rds ++ P := by
    rw [← List.append_assoc] at hnd
    intro hm
    exact (List.nodup_append.1 hnd).2.2 n hm n (by simp) rfl
  have hnd' : (served rds ++ P).Nodup := by
    rw [← List.append_assoc] at hnd
    exact (List.nodup_append.1 hnd).1
  have hna : n ∉ s.assigned := fun hm => hnP (List.mem_append_right _ (h2 n hm))
  have hnP' : n ∉ P := fun hm => hnP (List.mem_append_right _ hm)
  have h3c := fun x => List.perm_iff_count.1 h3 x
  rcases hs with ⟨rfl, c1, c2⟩ | ⟨c1, c2, c3, c4⟩
  · refine ⟨h1, fun x hx => List.mem_append_left _ (h2 x hx), ?_, h4, h6, ?_⟩
    · rw [List.filter_append, List.perm_iff_count]
      intro x
      have := h3c x
      have hf : ([n].filter fun x => ! decide (x ∈ s'.assigned)) = [n] := by simp [hna]
      rw [hf]
      simp only [List.count_append] at this ⊢
      omega
    · intro hi
      obtain ⟨g1, g2, g3, g4⟩ := h5 hi
      refine ⟨g1, g2, g3, ?_⟩
      intro x hx
      rcases List.mem_append.1 hx with hx | hx
      · exact g4 x hx
      · rw [List.mem_singleton.1 hx, ← g1]
        exact ⟨c1, c2⟩
  · have hfil := filter_setAdd hnP' hna
    rw [← c2] at hfil
    have hass : ∀ x ∈ s'.assigned, x ∈ P ++ [n] := by
      intro x hx
      rw [c2, setAdd, if_neg hna] at hx
      rcases List.mem_append.1 hx with hx | hx
      · exact List.mem_append_left _ (h2 x hx)
      · exact List.mem_append_right _ hx
    rcases c4 with ⟨g1, g2⟩ | ⟨m, g1, -, g2, f, rfl, g3⟩
    · refine ⟨keeps_trans h1 c1, hass, ?_, ?_, ?_, fun hi => absurd hi (by simp [c3])⟩
      · rw [hfil, g1, List.perm_iff_count]
        intro x
        have q1 := h3c x
        have q2 := List.perm_iff_count.1 g2 x
        simp only [List.count_append, List.count_cons, List.count_nil] at q1 q2 ⊢
        omega
      · have := g2.length_eq
        simp only [List.length_cons] at this
        omega
      · intro f hd hf
        have := h6 f hd hf
        rw [demand_perm f g2, demand_cons]
        have := hf n
        linarith
    · have hmo : m ∉ s.omitted := by
        intro hm
        have hms : m ∈ served s.routes := by
          have hmem := (g2.mem_iff (a := m)).1 (by simp)
          rcases List.mem_cons.1 hmem with rfl | hmem
          · exact absurd ((h3.mem_iff (a := m)).1 (by simp [hm])) hnP
          · exact hmem
        have hnd3 := h3.nodup_iff.2 hnd'
        exact (List.nodup_append.1 hnd3).2.2 m hms m (List.mem_append_right _ hm) rfl
      refine ⟨keeps_trans h1 c1, hass, ?_, ?_, ?_, fun hi => absurd hi (by simp [c3])⟩
      · rw [hfil, g1, setAdd, if_neg hmo, List.perm_iff_count]
        intro x
        have q1 := h3c x
        have q2 := List.perm_iff_count.1 g2 x
        simp only [List.count_append, List.count_cons, List.count_nil] at q1 q2 ⊢
        omega
      · have := g2.length_eq
        simp only [List.length_cons] at this
        omega
      · rintro f' ⟨⟩ hf
        have := h6 f rfl hf
        have q := demand_perm f g2
        rw [demand_cons, demand_cons] at q
        linarith

theorem complainLoop_spec {D : ℕ → ℕ → ℚ} {d : Option (ℕ → ℚ)} {C L : Option ℚ} {rds : List RouteData}
    (R P : List ℕ) (hnd : (served rds ++ (P ++ R)).Nodup) {s : ComplainState}
    (h : ComplainInv D d C L rds P s) :
    ∃ s', complainLoop D d C L R s = .ok s' ∧ ComplainInv D d C L rds (P ++ R) s' := by
  induction R generalizing P s with
  | nil => exact ⟨s, rfl, by rw [List.append_nil]; exact h⟩
  | cons n R ih =>
    have e : P ++ n :: R = P ++ [n] ++ R := by simp
    rw [e] at hnd ⊢
    obtain ⟨s', e1, e2⟩ := complainInv_step (n := n) (by
      rw [← List.append_assoc] at hnd
      exact (List.nodup_append.1 hnd).1) h
    obtain ⟨s'', e3, e4⟩ := ih (P ++ [n]) hnd e2
    refine ⟨s'', ?_, e4⟩
    rw [complainLoop, e1]
    exact e3

end Verif
