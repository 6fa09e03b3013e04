import Verif.Model.InterRoute
import Verif.Lemmas.IntraRoute
import Verif.Lemmas.RouteData
import Verif.Lemmas.CvrpOps
import Verif.Spec.GroupMoves

/-! # Lemmas for the inter-route operators -/

namespace Verif
open Spec

theorem truthy_iff {c : Option ℚ} : truthy c = true ↔ InUse c := by
  cases c with
  | none => simp [truthy, InUse]
  | some x => simp [truthy, InUse]

theorem over_ok {C : Option ℚ} {e x : ℚ} {v : Py ℚ} (h : InUse C → v = .ok x) :
    over C e v = .ok (exceeds C e x) := by
  unfold over
  by_cases ht : truthy C = true
  · rw [if_pos ht, h (truthy_iff.1 ht)]; rfl
  · rw [if_neg ht, exceeds_truthy (by simpa using ht)]; rfl

/-- The demand stored in a record built by an operator. -/
def demC (C : Option ℚ) (x : ℚ) : Option ℚ := if truthy C then some x else none

theorem ifC_ok {C : Option ℚ} {x : ℚ} {v : Py ℚ} (h : InUse C → v = .ok x) :
    ifC C v = .ok (demC C x) := by
  unfold ifC demC
  by_cases ht : truthy C = true
  · rw [if_pos ht, if_pos ht, h (truthy_iff.1 ht)]; rfl
  · rw [if_neg ht, if_neg ht]; rfl

/-- Demand of a node, 0 without demands. -/
def dq (d : Option (ℕ → ℚ)) (n : ℕ) : ℚ :=
  match d with
  | none => 0
  | some f => f n

/-- Demand of a route, 0 without demands. -/
def rq (d : Option (ℕ → ℚ)) (r : List ℕ) : ℚ :=
  match d with
  | none => 0
  | some f => demand f r

theorem rq_append (d : Option (ℕ → ℚ)) (l r : List ℕ) : rq d (l ++ r) = rq d l + rq d r := by
  cases d with
  | none => simp [rq]
  | some f => simp [rq, demand_append]

theorem rq_single (d : Option (ℕ → ℚ)) (n : ℕ) : rq d [n] = dq d n := by
  cases d with
  | none => simp [rq, dq]
  | some f => simp [rq, dq]

theorem rq_reverse (d : Option (ℕ → ℚ)) (l : List ℕ) : rq d l.reverse = rq d l := by
  cases d with
  | none => simp [rq]
  | some f => exact demand_reverse f l

theorem book_demand {D : ℕ → ℕ → ℚ} {d : Option (ℕ → ℚ)} {C : Option ℚ} {rd : RouteData}
    (h : Book D d C rd) (hC : InUse C) : num rd.demand = .ok (rq d rd.route) := by
  obtain ⟨f, rfl, h2⟩ := h.2 hC
  rw [h2]; rfl

theorem book_dem {D : ℕ → ℕ → ℚ} {d : Option (ℕ → ℚ)} {C : Option ℚ} {rd : RouteData}
    (h : Book D d C rd) (hC : InUse C) (n : ℕ) : dem d n = .ok (dq d n) := by
  obtain ⟨f, rfl, h2⟩ := h.2 hC
  rfl

/-- A record built by an operator is true. -/
theorem book_mk {D : ℕ → ℕ → ℚ} {d : Option (ℕ → ℚ)} {C : Option ℚ} {rd : RouteData}
    (h : Book D d C rd) {r : List ℕ} {c x : ℚ} (hc : c = cost D r) (hx : x = rq d r) :
    Book D d C ⟨r, c, demC C x⟩ := by
  refine ⟨hc, fun hC => ?_⟩
  obtain ⟨f, rfl, -⟩ := h.2 hC
  exact ⟨f, rfl, by rw [demC, if_pos (truthy_iff.2 hC), hx]; rfl⟩

theorem fitsC_iff {D : ℕ → ℕ → ℚ} {d : Option (ℕ → ℚ)} {C : Option ℚ} {rd : RouteData}
    (h : Book D d C rd) {e : ℚ} {r : List ℕ} : FitsC d C e r ↔ exceeds C e (rq d r) = false := by
  constructor
  · intro hf
    by_cases ht : truthy C = true
    · obtain ⟨f, rfl, -⟩ := h.2 (truthy_iff.1 ht)
      exact (exceeds_iff _ _ _).2 (hf f rfl)
    · exact exceeds_truthy (by simpa using ht) _ _
  · rintro he f rfl
    exact (exceeds_iff _ _ _).1 he

theorem fitsL_iff {D : ℕ → ℕ → ℚ} {L : Option ℚ} {e : ℚ} {r : List ℕ} :
    FitsL D L e r ↔ exceeds L e (cost D r) = false := (exceeds_iff _ _ _).symm

/-- The answer built from the state of a search, for groups. -/
def ganswer {M : Type} (res : M → List RouteData) (s : Search M) : Option (List RouteData × ℚ) :=
  match s with
  | (some m, x) => some (res m, x)
  | (none, _) => none

theorem groupOk_of_scan {M : Type} {D : ℕ → ℕ → ℚ}
    {Nb : List (List ℕ) → List (List ℕ) → Prop} {Feas : List (List ℕ) → Prop}
    {Rec : List RouteData → Prop} {st : LSOPT}
    {b0 : ℚ} {rds : List RouteData} {cands : List (M × ℚ)} {res : M → List RouteData}
    (hs : ∀ m x, (m, x) ∈ cands → Nb (rds.map (·.route)) ((res m).map (·.route)) ∧
      Feas ((res m).map (·.route)) ∧ Rec (res m) ∧
      total D ((res m).map (·.route)) = total D (rds.map (·.route)) + x)
    (hc : ∀ rs'', Nb (rds.map (·.route)) rs'' → Feas rs'' →
      ∃ c ∈ cands, c.2 = total D rs'' - total D (rds.map (·.route))) :
    GroupOkFor D Nb Feas Rec (st == .BEST_ACCEPT) b0 rds
      (ganswer res (scan st cands (none, b0)).1) := by
  rcases scan_cases st cands b0 with ⟨he, hn⟩ | ⟨m, x, he, hm, hx, hb⟩
  · rw [he]
    intro r'' hr hf
    obtain ⟨c, hc1, hc2⟩ := hc r'' hr hf
    rw [← hc2]; exact hn c hc1
  · rw [he]
    obtain ⟨h1, h2, h3, h4⟩ := hs m x hm
    refine ⟨h1, h2, h3, h4, hx, ?_⟩
    intro hbest r'' hr hf
    have hbest : st = .BEST_ACCEPT := by simpa using hbest
    obtain ⟨c, hc1, hc2⟩ := hc r'' hr hf
    rw [← hc2]; exact hb hbest c hc1

/-! ## removal, insertion and replacement of a node -/

theorem cost_remove {D : ℕ → ℕ → ℚ} {A B : List ℕ} {a b n : ℕ} (ha : A.getLast? = some a)
    (hb : B.head? = some b) :
    cost D (A ++ B) = cost D (A ++ [n] ++ B) + (D a b - D a n - D n b) := by
  have h1 : (A ++ [n]).getLast? = some n := by rw [List.getLast?_append]; rfl
  rw [cost_join ha hb, cost_join h1 hb, cost_join ha (b := n) rfl]
  simp; ring

theorem cost_replace {D : ℕ → ℕ → ℚ} {A B : List ℕ} {a b n m : ℕ} (ha : A.getLast? = some a)
    (hb : B.head? = some b) :
    cost D (A ++ [m] ++ B) = cost D (A ++ [n] ++ B) + (-D a n - D n b + D a m + D m b) := by
  have h1 := cost_remove (D := D) (n := n) ha hb
  have h2 := cost_remove (D := D) (n := m) ha hb
  linarith

/-- A route cut around an inner position. -/
theorem cut1 {r : List ℕ} {i : ℕ} (h1 : 1 ≤ i) (h2 : i + 1 < r.length) :
    r.take i ++ [nth r i] ++ r.drop (i + 1) = r ∧ (r.take i).getLast? = some (nth r (i - 1)) ∧
    (r.drop (i + 1)).head? = some (nth r (i + 1)) := by
  refine ⟨?_, ?_, drop_head h2⟩
  · rw [← slice_one (by omega), take_slice (by omega), List.take_append_drop]
  · have := take_getLast (l := r) (i := i - 1) (by omega)
    rwa [show i - 1 + 1 = i by omega] at this

/-- A route cut in two. -/
theorem cut2 {r : List ℕ} {j : ℕ} (h1 : 1 ≤ j) (h2 : j < r.length) :
    r.take j ++ r.drop j = r ∧ (r.take j).getLast? = some (nth r (j - 1)) ∧
    (r.drop j).head? = some (nth r j) := by
  refine ⟨List.take_append_drop _ _, ?_, drop_head h2⟩
  have := take_getLast (l := r) (i := j - 1) (by omega)
  rwa [show j - 1 + 1 = j by omega] at this

theorem ne_of_last {A : List ℕ} {a : ℕ} (h : A.getLast? = some a) : A ≠ [] := by
  rintro rfl; simp at h

theorem ne_of_head {A : List ℕ} {a : ℕ} (h : A.head? = some a) : A ≠ [] := by
  rintro rfl; simp at h

/-- Positions around a node of a route. -/
theorem pos1 {A B : List ℕ} {a b n : ℕ} (ha : A.getLast? = some a) (hb : B.head? = some b) :
    nth (A ++ [n] ++ B) (A.length - 1) = a ∧ nth (A ++ [n] ++ B) A.length = n ∧
    nth (A ++ [n] ++ B) (A.length + 1) = b ∧ 1 ≤ A.length ∧
    A.length + 1 < (A ++ [n] ++ B).length ∧ (A ++ [n] ++ B).take A.length = A ∧
    (A ++ [n] ++ B).drop (A.length + 1) = B := by
  have lA := ne_nil_length (ne_of_last ha)
  have lB := ne_nil_length (ne_of_head hb)
  obtain ⟨h1, h2, -, h4⟩ := nth_parts3 ha (B := [n]) (b := n) rfl (c := n) rfl hb
  refine ⟨h1, h2, h4, lA, ?_, ?_, ?_⟩
  · simp; omega
  · rw [List.append_assoc]; exact take_append_len _ _ _ rfl
  · exact drop_append_len _ _ _ (by simp)

theorem pos2 {A B : List ℕ} {a b : ℕ} (ha : A.getLast? = some a) (hb : B.head? = some b) :
    nth (A ++ B) (A.length - 1) = a ∧ nth (A ++ B) A.length = b ∧
    1 ≤ A.length ∧ A.length < (A ++ B).length ∧ (A ++ B).take A.length = A ∧
    (A ++ B).drop A.length = B := by
  have lA := ne_nil_length (ne_of_last ha)
  have lB := ne_nil_length (ne_of_head hb)
  refine ⟨nth_append_last ha, nth_append_head hb, lA, ?_, take_append_len _ _ _ rfl,
    drop_append_len _ _ _ rfl⟩
  simp; omega

/-! ## one-point move -/

def rmDelta (D : ℕ → ℕ → ℚ) (r : List ℕ) (i : ℕ) : ℚ :=
  D (nth r (i - 1)) (nth r (i + 1)) - D (nth r (i - 1)) (nth r i) - D (nth r i) (nth r (i + 1))

def insDelta (D : ℕ → ℕ → ℚ) (r : List ℕ) (j n : ℕ) : ℚ :=
  D (nth r (j - 1)) n + D n (nth r j) - D (nth r (j - 1)) (nth r j)

theorem cost_rm {D : ℕ → ℕ → ℚ} {r : List ℕ} {i : ℕ} (h1 : 1 ≤ i) (h2 : i + 1 < r.length) :
    cost D (r.take i ++ r.drop (i + 1)) = cost D r + rmDelta D r i := by
  obtain ⟨c1, c2, c3⟩ := cut1 h1 h2
  rw [cost_remove c2 c3 (n := nth r i), c1]; rfl

theorem cost_ins {D : ℕ → ℕ → ℚ} {r : List ℕ} {j n : ℕ} (h1 : 1 ≤ j) (h2 : j < r.length) :
    cost D (r.take j ++ [n] ++ r.drop j) = cost D r + insDelta D r j n := by
  obtain ⟨c1, c2, c3⟩ := cut2 h1 h2
  have := cost_remove (D := D) c2 c3 (n := n)
  rw [c1] at this
  unfold insDelta; linarith

theorem rq_rm {d : Option (ℕ → ℚ)} {r : List ℕ} {i : ℕ} (h1 : 1 ≤ i) (h2 : i + 1 < r.length) :
    rq d (r.take i ++ r.drop (i + 1)) = rq d r - dq d (nth r i) := by
  obtain ⟨c1, c2, c3⟩ := cut1 h1 h2
  conv_rhs => rw [← c1]
  rw [rq_append, rq_append, rq_append, rq_single, c1]; ring

theorem rq_ins {d : Option (ℕ → ℚ)} {r : List ℕ} {j n : ℕ} (h1 : 1 ≤ j) (h2 : j < r.length) :
    rq d (r.take j ++ [n] ++ r.drop j) = rq d r + dq d n := by
  obtain ⟨c1, c2, c3⟩ := cut2 h1 h2
  conv_rhs => rw [← c1]
  rw [rq_append, rq_append, rq_append, rq_single]; ring

abbrev M1 := ℕ × ℕ × ℚ × ℚ

def cands1p (D : ℕ → ℕ → ℚ) (d : Option (ℕ → ℚ)) (C L : Option ℚ) (r1 r2 : List ℕ) :
    List (M1 × ℚ) :=
  (pyRange 1 (r1.length - 1)).flatMap fun i =>
    if exceeds C C_EPS (rq d r2 + dq d (nth r1 i)) = true then []
    else (pyRange 1 r2.length).flatMap fun j =>
      if exceeds L S_EPS (cost D r2 + insDelta D r2 j (nth r1 i)) = true then []
      else [((i, j, rmDelta D r1 i, insDelta D r2 j (nth r1 i)),
        rmDelta D r1 i + insDelta D r2 j (nth r1 i))]

theorem mem_cands1p {D : ℕ → ℕ → ℚ} {d : Option (ℕ → ℚ)} {C L : Option ℚ} {r1 r2 : List ℕ}
    {c : M1 × ℚ} : c ∈ cands1p D d C L r1 r2 ↔ ∃ i j, 1 ≤ i ∧ i + 1 < r1.length ∧ 1 ≤ j ∧
      j < r2.length ∧ exceeds C C_EPS (rq d r2 + dq d (nth r1 i)) = false ∧
      exceeds L S_EPS (cost D r2 + insDelta D r2 j (nth r1 i)) = false ∧
      c = ((i, j, rmDelta D r1 i, insDelta D r2 j (nth r1 i)),
        rmDelta D r1 i + insDelta D r2 j (nth r1 i)) := by
  unfold cands1p
  simp only [List.mem_flatMap, mem_pyRange]
  constructor
  · rintro ⟨i, hi, h⟩
    split_ifs at h with h1
    · simp at h
    · simp only [List.mem_flatMap, mem_pyRange] at h
      obtain ⟨j, hj, h⟩ := h
      split_ifs at h with h2
      · simp at h
      · exact ⟨i, j, by omega, by omega, by omega, by omega, by simpa using h1, by simpa using h2,
          List.mem_singleton.1 h⟩
  · rintro ⟨i, j, h1, h2, h3, h4, h5, h6, rfl⟩
    refine ⟨i, by omega, ?_⟩
    rw [if_neg (by simp [h5])]
    simp only [List.mem_flatMap, mem_pyRange]
    refine ⟨j, by omega, ?_⟩
    rw [if_neg (by simp [h6])]
    simp

def res1p (d : Option (ℕ → ℚ)) (C : Option ℚ) (rd1 rd2 : RouteData) (m : M1) : List RouteData :=
  [⟨rd1.route.take m.1 ++ rd1.route.drop (m.1 + 1), rd1.cost + m.2.2.1,
      demC C (rq d rd1.route - dq d (nth rd1.route m.1))⟩,
    ⟨rd2.route.take m.2.1 ++ [nth rd1.route m.1] ++ rd2.route.drop m.2.1, rd2.cost + m.2.2.2,
      demC C (rq d rd2.route + dq d (nth rd1.route m.1))⟩]

theorem do_1point_eq {D : ℕ → ℕ → ℚ} {d : Option (ℕ → ℚ)} {C : Option ℚ} (L : Option ℚ)
    {rd1 rd2 : RouteData} (b1 : Book D d C rd1) (b2 : Book D d C rd2) (st : LSOPT)
    (bd : Option ℚ) :
    do_1point_move rd1 rd2 D d C L st bd = .ok (ganswer (res1p d C rd1 rd2)
      (scan st (cands1p D d C L rd1.route rd2.route) (none, initDelta bd)).1) := by
  unfold do_1point_move
  rw [forBreak_scan st (pyRange 1 (rd1.route.length - 1)) (fun i =>
    if exceeds C C_EPS (rq d rd2.route + dq d (nth rd1.route i)) = true then []
    else (pyRange 1 rd2.route.length).flatMap fun j =>
      if exceeds L S_EPS (cost D rd2.route + insDelta D rd2.route j (nth rd1.route i)) = true
      then []
      else [((i, j, rmDelta D rd1.route i, insDelta D rd2.route j (nth rd1.route i)),
        rmDelta D rd1.route i + insDelta D rd2.route j (nth rd1.route i))])]
  · rw [← cands1p]
    rcases scan_cases st (cands1p D d C L rd1.route rd2.route) (initDelta bd) with
      ⟨he, -⟩ | ⟨m, x, he, hm, -⟩
    · rcases hr : scan st (cands1p D d C L rd1.route rd2.route) (none, initDelta bd) with ⟨s, b⟩
      rw [hr] at he
      simp only at he
      subst he
      rfl
    · rcases hr : scan st (cands1p D d C L rd1.route rd2.route) (none, initDelta bd) with ⟨s, b⟩
      rw [hr] at he
      simp only at he
      subst he
      obtain ⟨i, j, h1, h2, h3, h4, -, -, hc⟩ := mem_cands1p.1 hm
      simp only [Prod.mk.injEq] at hc
      obtain ⟨rfl, rfl⟩ := hc
      simp only [bind, Except.bind, idx_ok (show i < rd1.route.length by omega)]
      rw [ifC_ok (x := rq d rd1.route - dq d (nth rd1.route i)),
        ifC_ok (x := rq d rd2.route + dq d (nth rd1.route i))]
      · rfl
      · intro h; rw [book_demand b2 h, book_dem b1 h]; rfl
      · intro h; rw [book_demand b1 h, book_dem b1 h]; rfl
  · intro i hi s
    rw [mem_pyRange] at hi
    rw [idx_ok (by omega), idx_ok (by omega), idx_ok (by omega)]
    simp only [bind, Except.bind]
    rw [over_ok (x := rq d rd2.route + dq d (nth rd1.route i))]
    · simp only
      split_ifs with hv
      · rfl
      · refine forBreak_scan st _ _ _ ?_ s
        intro j hj s
        rw [mem_pyRange] at hj
        rw [idx_ok (by omega), idx_ok (by omega)]
        rw [b2.1]
        simp only
        change (if exceeds L S_EPS (cost D rd2.route + insDelta D rd2.route j (nth rd1.route i))
          = true then _ else _) = _
        split_ifs with hw
        · rfl
        · rw [scan_single]; rfl
    · intro h; rw [book_demand b2 h, book_dem b2 h]; rfl

theorem total2 (D : ℕ → ℕ → ℚ) (a b : List ℕ) : total D [a, b] = cost D a + cost D b := by
  simp [total]

theorem total3 (D : ℕ → ℕ → ℚ) (a b c : List ℕ) :
    total D [a, b, c] = cost D a + cost D b + cost D c := by
  simp [total]; ring

theorem cands1p_sound {D : ℕ → ℕ → ℚ} {d : Option (ℕ → ℚ)} {C L : Option ℚ} {rd1 rd2 : RouteData}
    (b1 : Book D d C rd1) (b2 : Book D d C rd2) (m : M1) (x : ℚ)
    (h : (m, x) ∈ cands1p D d C L rd1.route rd2.route) :
    Nb1point ([rd1, rd2].map (·.route)) ((res1p d C rd1 rd2 m).map (·.route)) ∧
      FitsAll D d C L C_EPS S_EPS ((res1p d C rd1 rd2 m).map (·.route)).tail ∧
      (∀ rd ∈ res1p d C rd1 rd2 m, Book D d C rd) ∧
      total D ((res1p d C rd1 rd2 m).map (·.route)) = total D ([rd1, rd2].map (·.route)) + x := by
  obtain ⟨i, j, h1, h2, h3, h4, h5, h6, hc⟩ := mem_cands1p.1 h
  simp only [Prod.mk.injEq] at hc
  obtain ⟨rfl, rfl⟩ := hc
  obtain ⟨c1, c2, c3⟩ := cut1 h1 h2
  obtain ⟨e1, e2, e3⟩ := cut2 h3 h4
  refine ⟨⟨_, _, _, _, nth rd1.route i, ne_of_last c2, ne_of_head c3, ne_of_last e2,
    ne_of_head e3, ?_, rfl⟩, ?_, ?_, ?_⟩
  · simp only [List.map_cons, List.map_nil]; rw [c1, e1]
  · intro r hr
    simp only [res1p, List.map_cons, List.map_nil, List.tail_cons, List.mem_singleton] at hr
    subst hr
    constructor
    · rw [fitsC_iff b1, rq_ins h3 h4]; exact h5
    · rw [fitsL_iff, cost_ins h3 h4]; exact h6
  · intro rd hrd
    simp only [res1p, List.mem_cons, List.not_mem_nil, or_false] at hrd
    rcases hrd with rfl | rfl
    · exact book_mk b1 (by rw [cost_rm h1 h2, b1.1]) (by rw [rq_rm h1 h2])
    · exact book_mk b1 (by rw [cost_ins h3 h4, b2.1]) (by rw [rq_ins h3 h4])
  · simp only [res1p, List.map_cons, List.map_nil, total2]
    rw [cost_rm h1 h2, cost_ins h3 h4]; ring

theorem cands1p_complete {D : ℕ → ℕ → ℚ} {d : Option (ℕ → ℚ)} {C L : Option ℚ} {rd1 rd2 : RouteData}
    (b1 : Book D d C rd1) (rs : List (List ℕ))
    (h : Nb1point ([rd1, rd2].map (·.route)) rs) (hf : FitsAll D d C L C_EPS S_EPS rs.tail) :
    ∃ c ∈ cands1p D d C L rd1.route rd2.route,
      c.2 = total D rs - total D ([rd1, rd2].map (·.route)) := by
  obtain ⟨A, B, E, F, n, hA, hB, hE, hF, h1, rfl⟩ := h
  simp only [List.map_cons, List.map_nil, List.cons.injEq, and_true] at h1
  obtain ⟨r1, r2⟩ := h1
  obtain ⟨_, a, _, ha⟩ := ends hA
  obtain ⟨b, _, hb, _⟩ := ends hB
  obtain ⟨_, e, _, he⟩ := ends hE
  obtain ⟨f, _, hf', _⟩ := ends hF
  obtain ⟨p1, p2, p3, p4, p5, p6, p7⟩ := pos1 (n := n) ha hb
  obtain ⟨q1, q2, q3, q4, q5, q6⟩ := pos2 he hf'
  have hfit := hf (E ++ [n] ++ F) (by simp)
  rw [fitsC_iff b1, fitsL_iff] at hfit
  have k1 := rq_ins (d := d) (n := n) q3 q4
  have k2 := cost_ins (D := D) (n := n) q3 q4
  have k3 := cost_rm (D := D) p4 p5
  rw [q5, q6] at k1 k2
  rw [p6, p7] at k3
  refine ⟨_, mem_cands1p.2 ⟨A.length, E.length, p4, by rw [r1]; exact p5, q3, by rw [r2]; exact q4,
    ?_, ?_, rfl⟩, ?_⟩
  · rw [r1, r2, p2, ← k1]; exact hfit.1
  · rw [r1, r2, p2, ← k2]; exact hfit.2
  · simp only [List.map_cons, List.map_nil, total2]
    rw [r1, r2, k2, k3, p2]; ring

/-! ## two-point move -/

def repDelta (D : ℕ → ℕ → ℚ) (r : List ℕ) (i m : ℕ) : ℚ :=
  - D (nth r (i - 1)) (nth r i) - D (nth r i) (nth r (i + 1)) + D (nth r (i - 1)) m
    + D m (nth r (i + 1))

theorem cost_rep {D : ℕ → ℕ → ℚ} {r : List ℕ} {i m : ℕ} (h1 : 1 ≤ i) (h2 : i + 1 < r.length) :
    cost D (r.take i ++ [m] ++ r.drop (i + 1)) = cost D r + repDelta D r i m := by
  obtain ⟨c1, c2, c3⟩ := cut1 h1 h2
  rw [cost_replace c2 c3 (n := nth r i), c1]; rfl

theorem rq_rep {d : Option (ℕ → ℚ)} {r : List ℕ} {i m : ℕ} (h1 : 1 ≤ i) (h2 : i + 1 < r.length) :
    rq d (r.take i ++ [m] ++ r.drop (i + 1)) = rq d r - dq d (nth r i) + dq d m := by
  have := rq_rm (d := d) h1 h2
  rw [rq_append] at this
  rw [rq_append, rq_append, rq_single]; linarith

def cands2p (D : ℕ → ℕ → ℚ) (d : Option (ℕ → ℚ)) (C L : Option ℚ) (r1 r2 : List ℕ) :
    List (M1 × ℚ) :=
  (pyRange 1 (r1.length - 1)).flatMap fun i =>
    (pyRange 1 (r2.length - 1)).flatMap fun j =>
      if (exceeds C C_EPS (rq d r1 - dq d (nth r1 i) + dq d (nth r2 j)) ||
        exceeds C C_EPS (rq d r2 - dq d (nth r2 j) + dq d (nth r1 i))) = true then []
      else if (exceeds L 0 (cost D r1 + repDelta D r1 i (nth r2 j)) ||
        exceeds L 0 (cost D r2 + repDelta D r2 j (nth r1 i))) = true then []
      else [((i, j, repDelta D r1 i (nth r2 j), repDelta D r2 j (nth r1 i)),
        repDelta D r1 i (nth r2 j) + repDelta D r2 j (nth r1 i))]

theorem mem_cands2p {D : ℕ → ℕ → ℚ} {d : Option (ℕ → ℚ)} {C L : Option ℚ} {r1 r2 : List ℕ}
    {c : M1 × ℚ} : c ∈ cands2p D d C L r1 r2 ↔ ∃ i j, 1 ≤ i ∧ i + 1 < r1.length ∧ 1 ≤ j ∧
      j + 1 < r2.length ∧ exceeds C C_EPS (rq d r1 - dq d (nth r1 i) + dq d (nth r2 j)) = false ∧
      exceeds C C_EPS (rq d r2 - dq d (nth r2 j) + dq d (nth r1 i)) = false ∧
      exceeds L 0 (cost D r1 + repDelta D r1 i (nth r2 j)) = false ∧
      exceeds L 0 (cost D r2 + repDelta D r2 j (nth r1 i)) = false ∧
      c = ((i, j, repDelta D r1 i (nth r2 j), repDelta D r2 j (nth r1 i)),
        repDelta D r1 i (nth r2 j) + repDelta D r2 j (nth r1 i)) := by
  unfold cands2p
  simp only [List.mem_flatMap, mem_pyRange]
  constructor
  · rintro ⟨i, hi, j, hj, h⟩
    split_ifs at h with h1 h2
    · simp at h
    · simp at h
    · simp only [Bool.or_eq_true, not_or, Bool.not_eq_true] at h1 h2
      exact ⟨i, j, by omega, by omega, by omega, by omega, h1.1, h1.2, h2.1, h2.2,
          List.mem_singleton.1 h⟩
  · rintro ⟨i, j, h1, h2, h3, h4, h5, h6, h7, h8, rfl⟩
    refine ⟨i, by omega, j, by omega, ?_⟩
    rw [if_neg (by simp [h5, h6]), if_neg (by simp [h7, h8])]
    simp

def res2p (d : Option (ℕ → ℚ)) (C : Option ℚ) (rd1 rd2 : RouteData) (m : M1) : List RouteData :=
  [⟨rd1.route.take m.1 ++ [nth rd2.route m.2.1] ++ rd1.route.drop (m.1 + 1), rd1.cost + m.2.2.1,
      demC C (rq d rd1.route - dq d (nth rd1.route m.1) + dq d (nth rd2.route m.2.1))⟩,
    ⟨rd2.route.take m.2.1 ++ [nth rd1.route m.1] ++ rd2.route.drop (m.2.1 + 1),
      rd2.cost + m.2.2.2,
      demC C (rq d rd2.route - dq d (nth rd2.route m.2.1) + dq d (nth rd1.route m.1))⟩]

/-- Two tests with `or`. -/
theorem or_ok {a b : Bool} {u v : Py Bool} (hu : u = .ok a) (hv : v = .ok b) :
    (do let x ← u; if x then pure true else v) = (.ok (a || b) : Py Bool) := by
  subst hu hv; cases a <;> rfl

theorem do_2point_eq {D : ℕ → ℕ → ℚ} {d : Option (ℕ → ℚ)} {C : Option ℚ} (L : Option ℚ)
    {rd1 rd2 : RouteData} (b1 : Book D d C rd1) (b2 : Book D d C rd2) (st : LSOPT)
    (bd : Option ℚ) :
    do_2point_move rd1 rd2 D d C L st bd = .ok (ganswer (res2p d C rd1 rd2)
      (scan st (cands2p D d C L rd1.route rd2.route) (none, initDelta bd)).1) := by
  unfold do_2point_move
  rw [forBreak_scan st (pyRange 1 (rd1.route.length - 1)) (fun i =>
    (pyRange 1 (rd2.route.length - 1)).flatMap fun j =>
      if (exceeds C C_EPS (rq d rd1.route - dq d (nth rd1.route i) + dq d (nth rd2.route j)) ||
        exceeds C C_EPS (rq d rd2.route - dq d (nth rd2.route j) + dq d (nth rd1.route i))) = true
      then []
      else if (exceeds L 0 (cost D rd1.route + repDelta D rd1.route i (nth rd2.route j)) ||
        exceeds L 0 (cost D rd2.route + repDelta D rd2.route j (nth rd1.route i))) = true then []
      else [((i, j, repDelta D rd1.route i (nth rd2.route j),
          repDelta D rd2.route j (nth rd1.route i)),
        repDelta D rd1.route i (nth rd2.route j) + repDelta D rd2.route j (nth rd1.route i))])]
  · rw [← cands2p]
    rcases scan_cases st (cands2p D d C L rd1.route rd2.route) (initDelta bd) with
      ⟨he, -⟩ | ⟨m, x, he, hm, -⟩
    · rcases hr : scan st (cands2p D d C L rd1.route rd2.route) (none, initDelta bd) with ⟨s, b⟩
      rw [hr] at he
      simp only at he
      subst he
      rfl
    · rcases hr : scan st (cands2p D d C L rd1.route rd2.route) (none, initDelta bd) with ⟨s, b⟩
      rw [hr] at he
      simp only at he
      subst he
      obtain ⟨i, j, h1, h2, h3, h4, -, -, -, -, hc⟩ := mem_cands2p.1 hm
      simp only [Prod.mk.injEq] at hc
      obtain ⟨rfl, rfl⟩ := hc
      simp only [bind, Except.bind, idx_ok (show i < rd1.route.length by omega),
        idx_ok (show j < rd2.route.length by omega)]
      rw [ifC_ok (x := rq d rd1.route - dq d (nth rd1.route i) + dq d (nth rd2.route j)),
        ifC_ok (x := rq d rd2.route - dq d (nth rd2.route j) + dq d (nth rd1.route i))]
      · rfl
      · intro h; rw [book_demand b2 h, book_dem b1 h, book_dem b1 h]; rfl
      · intro h; rw [book_demand b1 h, book_dem b1 h, book_dem b1 h]; rfl
  · intro i hi s
    rw [mem_pyRange] at hi
    rw [idx_ok (by omega), idx_ok (by omega), idx_ok (by omega)]
    simp only [bind, Except.bind]
    refine forBreak_scan st _ _ _ ?_ s
    intro j hj s
    rw [mem_pyRange] at hj
    rw [idx_ok (by omega)]
    simp only
    rw [over_ok (x := rq d rd1.route - dq d (nth rd1.route i) + dq d (nth rd2.route j)),
      over_ok (x := rq d rd2.route - dq d (nth rd2.route j) + dq d (nth rd1.route i))]
    · have h0 : j - 1 < rd2.route.length := by omega
      have h1 : j + 1 < rd2.route.length := by omega
      rw [b1.1, b2.1]
      cases hv1 : exceeds C C_EPS (rq d rd1.route - dq d (nth rd1.route i) + dq d (nth rd2.route j))
      · cases hv2 : exceeds C C_EPS
          (rq d rd2.route - dq d (nth rd2.route j) + dq d (nth rd1.route i))
        · simp only [Bool.false_eq_true, if_false, Bool.or_false, idx_ok h0, idx_ok h1]
          change (if (exceeds L 0 (cost D rd1.route + repDelta D rd1.route i (nth rd2.route j)) ||
            exceeds L 0 (cost D rd2.route + repDelta D rd2.route j (nth rd1.route i))) = true
            then _ else _) = _
          split_ifs with hw
          · rfl
          · rw [scan_single]; rfl
        · rfl
      · rfl
    · intro h; rw [book_demand b2 h, book_dem b2 h, book_dem b2 h]; rfl
    · intro h; rw [book_demand b1 h, book_dem b2 h, book_dem b2 h]; rfl

theorem cands2p_sound {D : ℕ → ℕ → ℚ} {d : Option (ℕ → ℚ)} {C L : Option ℚ} {rd1 rd2 : RouteData}
    (b1 : Book D d C rd1) (b2 : Book D d C rd2) (m : M1) (x : ℚ)
    (h : (m, x) ∈ cands2p D d C L rd1.route rd2.route) :
    Nb2point ([rd1, rd2].map (·.route)) ((res2p d C rd1 rd2 m).map (·.route)) ∧
      FitsAll D d C L C_EPS 0 ((res2p d C rd1 rd2 m).map (·.route)) ∧
      (∀ rd ∈ res2p d C rd1 rd2 m, Book D d C rd) ∧
      total D ((res2p d C rd1 rd2 m).map (·.route)) = total D ([rd1, rd2].map (·.route)) + x := by
  obtain ⟨i, j, h1, h2, h3, h4, h5, h6, h7, h8, hc⟩ := mem_cands2p.1 h
  simp only [Prod.mk.injEq] at hc
  obtain ⟨rfl, rfl⟩ := hc
  obtain ⟨c1, c2, c3⟩ := cut1 h1 h2
  obtain ⟨e1, e2, e3⟩ := cut1 h3 h4
  refine ⟨⟨_, _, _, _, nth rd1.route i, nth rd2.route j, ne_of_last c2, ne_of_head c3,
    ne_of_last e2, ne_of_head e3, ?_, rfl⟩, ?_, ?_, ?_⟩
  · simp only [List.map_cons, List.map_nil]; rw [c1, e1]
  · intro r hr
    simp only [res2p, List.map_cons, List.map_nil, List.mem_cons, List.not_mem_nil, or_false] at hr
    rcases hr with rfl | rfl
    · rw [fitsC_iff b1, rq_rep h1 h2, fitsL_iff, cost_rep h1 h2]; exact ⟨h5, h7⟩
    · rw [fitsC_iff b1, rq_rep h3 h4, fitsL_iff, cost_rep h3 h4]; exact ⟨h6, h8⟩
  · intro rd hrd
    simp only [res2p, List.mem_cons, List.not_mem_nil, or_false] at hrd
    rcases hrd with rfl | rfl
    · exact book_mk b1 (by rw [cost_rep h1 h2, b1.1]) (by rw [rq_rep h1 h2])
    · exact book_mk b1 (by rw [cost_rep h3 h4, b2.1]) (by rw [rq_rep h3 h4])
  · simp only [res2p, List.map_cons, List.map_nil, total2]
    rw [cost_rep h1 h2, cost_rep h3 h4]; ring

theorem cands2p_complete {D : ℕ → ℕ → ℚ} {d : Option (ℕ → ℚ)} {C L : Option ℚ} {rd1 rd2 : RouteData}
    (b1 : Book D d C rd1) (rs : List (List ℕ))
    (h : Nb2point ([rd1, rd2].map (·.route)) rs) (hf : FitsAll D d C L C_EPS 0 rs) :
    ∃ c ∈ cands2p D d C L rd1.route rd2.route,
      c.2 = total D rs - total D ([rd1, rd2].map (·.route)) := by
  obtain ⟨A, B, E, F, n, m, hA, hB, hE, hF, h1, rfl⟩ := h
  simp only [List.map_cons, List.map_nil, List.cons.injEq, and_true] at h1
  obtain ⟨r1, r2⟩ := h1
  obtain ⟨_, a, _, ha⟩ := ends hA
  obtain ⟨b, _, hb, _⟩ := ends hB
  obtain ⟨_, e, _, he⟩ := ends hE
  obtain ⟨f, _, hf', _⟩ := ends hF
  obtain ⟨p1, p2, p3, p4, p5, p6, p7⟩ := pos1 (n := n) ha hb
  obtain ⟨q1, q2, q3, q4, q5, q6, q7⟩ := pos1 (n := m) he hf'
  have hfit1 := hf (A ++ [m] ++ B) (by simp)
  have hfit2 := hf (E ++ [n] ++ F) (by simp)
  rw [fitsC_iff b1, fitsL_iff] at hfit1 hfit2
  have k1 := rq_rep (d := d) (m := m) p4 p5
  have k2 := cost_rep (D := D) (m := m) p4 p5
  have k3 := rq_rep (d := d) (m := n) q4 q5
  have k4 := cost_rep (D := D) (m := n) q4 q5
  rw [p6, p7] at k1 k2
  rw [q6, q7] at k3 k4
  rw [p2] at k1
  rw [q2] at k3
  refine ⟨_, mem_cands2p.2 ⟨A.length, E.length, p4, by rw [r1]; exact p5, q4, by rw [r2]; exact q5,
    ?_, ?_, ?_, ?_, rfl⟩, ?_⟩
  · rw [r1, r2, p2, q2, ← k1]; exact hfit1.1
  · rw [r1, r2, p2, q2, ← k3]; exact hfit2.1
  · rw [r1, r2, q2, ← k2]; exact hfit1.2
  · rw [r1, r2, p2, ← k4]; exact hfit2.2
  · simp only [List.map_cons, List.map_nil, total2]
    rw [r1, r2, k2, k4, p2, q2]; ring

/-! ## chain move -/

abbrev M3 := ℕ × ℕ × ℕ × ℚ × ℚ × ℚ

/-- The change of cost when the node at position `j` is replaced, in the order of the code. -/
def repDelta' (D : ℕ → ℕ → ℚ) (r : List ℕ) (j m : ℕ) : ℚ :=
  D (nth r (j - 1)) m + D m (nth r (j + 1)) - D (nth r (j - 1)) (nth r j)
    - D (nth r j) (nth r (j + 1))

theorem repDelta'_eq (D : ℕ → ℕ → ℚ) (r : List ℕ) (j m : ℕ) :
    repDelta' D r j m = repDelta D r j m := by unfold repDelta' repDelta; ring

def candsCh (D : ℕ → ℕ → ℚ) (d : Option (ℕ → ℚ)) (C L : Option ℚ) (r1 r2 r3 : List ℕ) :
    List (M3 × ℚ) :=
  (pyRange 1 (r1.length - 1)).flatMap fun i =>
    (pyRange 1 (r2.length - 1)).flatMap fun j =>
      if (exceeds C 0 (rq d r2 - dq d (nth r2 j) + dq d (nth r1 i)) ||
        exceeds C 0 (rq d r3 + dq d (nth r2 j))) = true then []
      else if exceeds L 0 (cost D r2 + repDelta' D r2 j (nth r1 i)) = true then []
      else (pyRange 1 r3.length).flatMap fun k =>
        if exceeds L 0 (cost D r3 + insDelta D r3 k (nth r2 j)) = true then []
        else [((i, j, k, rmDelta D r1 i, repDelta' D r2 j (nth r1 i), insDelta D r3 k (nth r2 j)),
          rmDelta D r1 i + repDelta' D r2 j (nth r1 i) + insDelta D r3 k (nth r2 j))]

theorem mem_candsCh {D : ℕ → ℕ → ℚ} {d : Option (ℕ → ℚ)} {C L : Option ℚ} {r1 r2 r3 : List ℕ}
    {c : M3 × ℚ} : c ∈ candsCh D d C L r1 r2 r3 ↔ ∃ i j k, 1 ≤ i ∧ i + 1 < r1.length ∧ 1 ≤ j ∧
      j + 1 < r2.length ∧ 1 ≤ k ∧ k < r3.length ∧
      exceeds C 0 (rq d r2 - dq d (nth r2 j) + dq d (nth r1 i)) = false ∧
      exceeds C 0 (rq d r3 + dq d (nth r2 j)) = false ∧
      exceeds L 0 (cost D r2 + repDelta' D r2 j (nth r1 i)) = false ∧
      exceeds L 0 (cost D r3 + insDelta D r3 k (nth r2 j)) = false ∧
      c = ((i, j, k, rmDelta D r1 i, repDelta' D r2 j (nth r1 i), insDelta D r3 k (nth r2 j)),
          rmDelta D r1 i + repDelta' D r2 j (nth r1 i) + insDelta D r3 k (nth r2 j)) := by
  unfold candsCh
  simp only [List.mem_flatMap, mem_pyRange]
  constructor
  · rintro ⟨i, hi, j, hj, h⟩
    split_ifs at h with h1 h2
    · simp at h
    · simp at h
    · simp only [Bool.or_eq_true, not_or, Bool.not_eq_true] at h1 h2
      simp only [List.mem_flatMap, mem_pyRange] at h
      obtain ⟨k, hk, h⟩ := h
      split_ifs at h with h3
      · simp at h
      · simp only [Bool.not_eq_true] at h3
        exact ⟨i, j, k, by omega, by omega, by omega, by omega, by omega, by omega, h1.1, h1.2, h2,
          h3, List.mem_singleton.1 h⟩
  · rintro ⟨i, j, k, h1, h2, h3, h4, h5, h6, h7, h8, h9, h10, rfl⟩
    refine ⟨i, by omega, j, by omega, ?_⟩
    rw [if_neg (by simp [h7, h8]), if_neg (by simp [h9])]
    simp only [List.mem_flatMap, mem_pyRange]
    refine ⟨k, by omega, ?_⟩
    rw [if_neg (by simp [h10])]
    simp

def resCh (d : Option (ℕ → ℚ)) (C : Option ℚ) (rd1 rd2 rd3 : RouteData) (m : M3) :
    List RouteData :=
  [⟨rd1.route.take m.1 ++ rd1.route.drop (m.1 + 1), rd1.cost + m.2.2.2.1,
      demC C (rq d rd1.route - dq d (nth rd1.route m.1))⟩,
    ⟨rd2.route.take m.2.1 ++ [nth rd1.route m.1] ++ rd2.route.drop (m.2.1 + 1),
      rd2.cost + m.2.2.2.2.1,
      demC C (rq d rd2.route - dq d (nth rd2.route m.2.1) + dq d (nth rd1.route m.1))⟩,
    ⟨rd3.route.take m.2.2.1 ++ [nth rd2.route m.2.1] ++ rd3.route.drop m.2.2.1,
      rd3.cost + m.2.2.2.2.2, demC C (rq d rd3.route + dq d (nth rd2.route m.2.1))⟩]

theorem do_chain_eq {D : ℕ → ℕ → ℚ} {d : Option (ℕ → ℚ)} {C : Option ℚ} (L : Option ℚ)
    {rd1 rd2 rd3 : RouteData} (b1 : Book D d C rd1) (b2 : Book D d C rd2) (b3 : Book D d C rd3)
    (st : LSOPT) (bd : Option ℚ) :
    do_chain_move rd1 rd2 rd3 D d C L st bd = .ok (ganswer (resCh d C rd1 rd2 rd3)
      (scan st (candsCh D d C L rd1.route rd2.route rd3.route) (none, initDelta bd)).1) := by
  unfold do_chain_move
  rw [forBreak_scan st (pyRange 1 (rd1.route.length - 1)) (fun i =>
    (pyRange 1 (rd2.route.length - 1)).flatMap fun j =>
      if (exceeds C 0 (rq d rd2.route - dq d (nth rd2.route j) + dq d (nth rd1.route i)) ||
        exceeds C 0 (rq d rd3.route + dq d (nth rd2.route j))) = true then []
      else if exceeds L 0 (cost D rd2.route + repDelta' D rd2.route j (nth rd1.route i)) = true
      then []
      else (pyRange 1 rd3.route.length).flatMap fun k =>
        if exceeds L 0 (cost D rd3.route + insDelta D rd3.route k (nth rd2.route j)) = true then []
        else [((i, j, k, rmDelta D rd1.route i, repDelta' D rd2.route j (nth rd1.route i),
            insDelta D rd3.route k (nth rd2.route j)),
          rmDelta D rd1.route i + repDelta' D rd2.route j (nth rd1.route i)
            + insDelta D rd3.route k (nth rd2.route j))])]
  · rw [← candsCh]
    rcases scan_cases st (candsCh D d C L rd1.route rd2.route rd3.route) (initDelta bd) with
      ⟨he, -⟩ | ⟨m, x, he, hm, -⟩
    · rcases hr : scan st (candsCh D d C L rd1.route rd2.route rd3.route) (none, initDelta bd)
        with ⟨s, b⟩
      rw [hr] at he
      simp only at he
      subst he
      rfl
    · rcases hr : scan st (candsCh D d C L rd1.route rd2.route rd3.route) (none, initDelta bd)
        with ⟨s, b⟩
      rw [hr] at he
      simp only at he
      subst he
      obtain ⟨i, j, k, h1, h2, h3, h4, h5, h6, -, -, -, -, hc⟩ := mem_candsCh.1 hm
      simp only [Prod.mk.injEq] at hc
      obtain ⟨rfl, rfl⟩ := hc
      simp only [bind, Except.bind, idx_ok (show i < rd1.route.length by omega),
        idx_ok (show j < rd2.route.length by omega)]
      rw [ifC_ok (x := rq d rd1.route - dq d (nth rd1.route i)),
        ifC_ok (x := rq d rd2.route - dq d (nth rd2.route j) + dq d (nth rd1.route i)),
        ifC_ok (x := rq d rd3.route + dq d (nth rd2.route j))]
      · rfl
      · intro h; rw [book_demand b3 h, book_dem b1 h]; rfl
      · intro h; rw [book_demand b2 h, book_dem b1 h, book_dem b1 h]; rfl
      · intro h; rw [book_demand b1 h, book_dem b1 h]; rfl
  · intro i hi s
    rw [mem_pyRange] at hi
    rw [idx_ok (by omega), idx_ok (by omega), idx_ok (by omega)]
    simp only [bind, Except.bind]
    refine forBreak_scan st _ _ _ ?_ s
    intro j hj s
    rw [mem_pyRange] at hj
    rw [idx_ok (by omega), idx_ok (by omega), idx_ok (by omega)]
    simp only
    rw [over_ok (x := rq d rd2.route - dq d (nth rd2.route j) + dq d (nth rd1.route i)),
      over_ok (x := rq d rd3.route + dq d (nth rd2.route j))]
    · rw [b2.1, b3.1]
      cases hv1 : exceeds C 0 (rq d rd2.route - dq d (nth rd2.route j) + dq d (nth rd1.route i))
      · cases hv2 : exceeds C 0 (rq d rd3.route + dq d (nth rd2.route j))
        · simp only [Bool.false_eq_true, if_false, Bool.or_false]
          change (if exceeds L 0 (cost D rd2.route + repDelta' D rd2.route j (nth rd1.route i))
            = true then _ else _) = _
          split_ifs with hw
          · rfl
          · refine forBreak_scan st _ _ _ ?_ s
            intro k hk s
            rw [mem_pyRange] at hk
            rw [idx_ok (by omega), idx_ok (by omega)]
            simp only
            change (if exceeds L 0 (cost D rd3.route + insDelta D rd3.route k (nth rd2.route j))
              = true then _ else _) = _
            split_ifs with hx
            · rfl
            · rw [scan_single]; rfl
        · rfl
      · rfl
    · intro h; rw [book_demand b3 h, book_dem b2 h]; rfl
    · intro h; rw [book_demand b2 h, book_dem b2 h, book_dem b2 h]; rfl

theorem candsCh_sound {D : ℕ → ℕ → ℚ} {d : Option (ℕ → ℚ)} {C L : Option ℚ}
    {rd1 rd2 rd3 : RouteData}
    (b1 : Book D d C rd1) (b2 : Book D d C rd2) (b3 : Book D d C rd3) (m : M3) (x : ℚ)
    (h : (m, x) ∈ candsCh D d C L rd1.route rd2.route rd3.route) :
    NbChain ([rd1, rd2, rd3].map (·.route)) ((resCh d C rd1 rd2 rd3 m).map (·.route)) ∧
      FitsAll D d C L 0 0 ((resCh d C rd1 rd2 rd3 m).map (·.route)).tail ∧
      (∀ rd ∈ resCh d C rd1 rd2 rd3 m, Book D d C rd) ∧
      total D ((resCh d C rd1 rd2 rd3 m).map (·.route))
        = total D ([rd1, rd2, rd3].map (·.route)) + x := by
  obtain ⟨i, j, k, h1, h2, h3, h4, h5, h6, h7, h8, h9, h10, hc⟩ := mem_candsCh.1 h
  simp only [Prod.mk.injEq] at hc
  obtain ⟨rfl, rfl⟩ := hc
  obtain ⟨c1, c2, c3⟩ := cut1 h1 h2
  obtain ⟨e1, e2, e3⟩ := cut1 h3 h4
  obtain ⟨f1, f2, f3⟩ := cut2 h5 h6
  rw [repDelta'_eq] at *
  refine ⟨⟨_, _, _, _, _, _, nth rd1.route i, nth rd2.route j, ne_of_last c2, ne_of_head c3,
    ne_of_last e2, ne_of_head e3, ne_of_last f2, ne_of_head f3, ?_, rfl⟩, ?_, ?_, ?_⟩
  · simp only [List.map_cons, List.map_nil]; rw [c1, e1, f1]
  · intro r hr
    simp only [resCh, List.map_cons, List.map_nil, List.tail_cons, List.mem_cons,
      List.not_mem_nil, or_false] at hr
    rcases hr with rfl | rfl
    · rw [fitsC_iff b1, rq_rep h3 h4, fitsL_iff, cost_rep h3 h4]; exact ⟨h7, h9⟩
    · rw [fitsC_iff b1, rq_ins h5 h6, fitsL_iff, cost_ins h5 h6]; exact ⟨h8, h10⟩
  · intro rd hrd
    simp only [resCh, List.mem_cons, List.not_mem_nil, or_false] at hrd
    rcases hrd with rfl | rfl | rfl
    · exact book_mk b1 (by rw [cost_rm h1 h2, b1.1]) (by rw [rq_rm h1 h2])
    · exact book_mk b1 (by rw [cost_rep h3 h4, b2.1]) (by rw [rq_rep h3 h4])
    · exact book_mk b1 (by rw [cost_ins h5 h6, b3.1]) (by rw [rq_ins h5 h6])
  · simp only [resCh, List.map_cons, List.map_nil, total3]
    rw [cost_rm h1 h2, cost_rep h3 h4, cost_ins h5 h6]; ring

theorem candsCh_complete {D : ℕ → ℕ → ℚ} {d : Option (ℕ → ℚ)} {C L : Option ℚ}
    {rd1 rd2 rd3 : RouteData}
    (b1 : Book D d C rd1) (rs : List (List ℕ))
    (h : NbChain ([rd1, rd2, rd3].map (·.route)) rs) (hf : FitsAll D d C L 0 0 rs.tail) :
    ∃ c ∈ candsCh D d C L rd1.route rd2.route rd3.route,
      c.2 = total D rs - total D ([rd1, rd2, rd3].map (·.route)) := by
  obtain ⟨A, B, E, F, G, H, n, m, hA, hB, hE, hF, hG, hH, h1, rfl⟩ := h
  simp only [List.map_cons, List.map_nil, List.cons.injEq, and_true] at h1
  obtain ⟨r1, r2, r3⟩ := h1
  obtain ⟨_, a, _, ha⟩ := ends hA
  obtain ⟨b, _, hb, _⟩ := ends hB
  obtain ⟨_, e, _, he⟩ := ends hE
  obtain ⟨f, _, hf', _⟩ := ends hF
  obtain ⟨_, g, _, hg⟩ := ends hG
  obtain ⟨h, _, hh, _⟩ := ends hH
  obtain ⟨p1, p2, p3, p4, p5, p6, p7⟩ := pos1 (n := n) ha hb
  obtain ⟨q1, q2, q3, q4, q5, q6, q7⟩ := pos1 (n := m) he hf'
  obtain ⟨o1, o2, o3, o4, o5, o6⟩ := pos2 hg hh
  have hfit1 := hf (E ++ [n] ++ F) (by simp)
  have hfit2 := hf (G ++ [m] ++ H) (by simp)
  rw [fitsC_iff b1, fitsL_iff] at hfit1 hfit2
  have k1 := cost_rm (D := D) p4 p5
  have k3 := rq_rep (d := d) (m := n) q4 q5
  have k4 := cost_rep (D := D) (m := n) q4 q5
  have k5 := rq_ins (d := d) (n := m) o3 o4
  have k6 := cost_ins (D := D) (n := m) o3 o4
  rw [p6, p7] at k1
  rw [q6, q7] at k3 k4
  rw [o5, o6] at k5 k6
  rw [q2] at k3
  refine ⟨_, mem_candsCh.2 ⟨A.length, E.length, G.length, p4, by rw [r1]; exact p5, q4,
    by rw [r2]; exact q5, o3, by rw [r3]; exact o4, ?_, ?_, ?_, ?_, rfl⟩, ?_⟩
  · rw [r1, r2, p2, q2, ← k3]; exact hfit1.1
  · rw [r2, r3, q2, ← k5]; exact hfit2.1
  · rw [r1, r2, p2, repDelta'_eq, ← k4]; exact hfit1.2
  · rw [r2, r3, q2, ← k6]; exact hfit2.2
  · simp only [List.map_cons, List.map_nil, total3]
    rw [r1, r2, r3, k1, k4, k6, p2, q2, repDelta'_eq]; ring

end Verif
