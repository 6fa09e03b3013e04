import Verif.Lemmas.InterRoute
import Verif.Props.RouteData

/-! # Lemmas for 2-opt* -/

namespace Verif
open Spec

theorem idx_q {l : List ℚ} {i : ℕ} {x : ℚ} (h : l[i]? = some x) : idx l i = .ok x := by
  unfold idx; rw [h]

theorem demand_head0 {f : ℕ → ℚ} (h0 : f 0 = 0) {l : List ℕ} (h : l.head? = some 0) :
    demand f l.tail = demand f l := by
  cases l with
  | nil => simp at h
  | cons a t => simp at h; subst h; simp [h0]

theorem demand_last0 {f : ℕ → ℚ} (h0 : f 0 = 0) {l : List ℕ} (h : l.getLast? = some 0) :
    demand f l.dropLast = demand f l := by
  obtain ⟨u, rfl⟩ := getLast_zero_split h
  simp [h0]

theorem aux_fwd {D : ℕ → ℕ → ℚ} {d : Option (ℕ → ℚ)} (h0 : DepotFree d) {r : List ℕ}
    (hr : DepotEnds r) : ∃ fl fd, update_auxiliary_data r D d true = .ok (fl, fd) ∧
      ∀ i < r.length, idx fl i = .ok (cost D (r.take (i + 1))) ∧
        idx fd i = .ok (rq d (r.take (i + 1))) := by
  cases d with
  | some f =>
    obtain ⟨fl, fd, h1, -, -, h2⟩ := C07_forward r hr.1 D f
    refine ⟨fl, fd, h1, fun i hi => ⟨idx_q (h2 i hi).1, ?_⟩⟩
    rw [idx_q (h2 i hi).2, demand_head0 (h0 f rfl)]
    · rfl
    · have := hr.1
      cases r with
      | nil => simp at this
      | cons => simpa using this
  | none =>
    obtain ⟨cl, cd, cd', h1, h2, h3⟩ := C07_no_demands r hr D (fun _ => 0) true
    obtain ⟨fl, fd, h4, -, -, h5⟩ := C07_forward r hr.1 D (fun _ => 0)
    rw [h4] at h2
    simp only [Except.ok.injEq, Prod.mk.injEq] at h2
    refine ⟨cl, cd, h1, fun i hi => ⟨idx_q (by rw [← h2.1]; exact (h5 i hi).1), idx_q ?_⟩⟩
    rw [h3]; simp [rq, hi]

theorem aux_bwd {D : ℕ → ℕ → ℚ} (hD : Symm D) {d : Option (ℕ → ℚ)} (h0 : DepotFree d)
    {r : List ℕ} (hr : DepotEnds r) : ∃ rl rd, update_auxiliary_data r D d false = .ok (rl, rd) ∧
      ∀ i < r.length, idx rl i = .ok (cost D (r.drop i)) ∧ idx rd i = .ok (rq d (r.drop i)) := by
  cases d with
  | some f =>
    obtain ⟨fl, fd, h1, -, -, h2⟩ := C07_backward r hr.2 D f
    refine ⟨fl, fd, h1, fun i hi => ⟨?_, ?_⟩⟩
    · rw [idx_q (h2 i hi).1, cost_reverse hD]
    · rw [idx_q (h2 i hi).2, demand_last0 (h0 f rfl)]
      · rfl
      · rw [List.getLast?_drop, if_neg (by omega), hr.2]
  | none =>
    obtain ⟨cl, cd, cd', h1, h2, h3⟩ := C07_no_demands r hr D (fun _ => 0) false
    obtain ⟨fl, fd, h4, -, -, h5⟩ := C07_backward r hr.2 D (fun _ => 0)
    rw [h4] at h2
    simp only [Except.ok.injEq, Prod.mk.injEq] at h2
    refine ⟨cl, cd, h1, fun i hi => ⟨?_, idx_q ?_⟩⟩
    · rw [← h2.1, idx_q (h5 i hi).1, cost_reverse hD]
    · rw [h3]; simp [rq, hi]

theorem test2optStar_eq {st : LSOPT} {C L : Option ℚ} {delta : ℚ} {mv : Option ℚ → Move2optStar}
    {dem1 dem2 len1 len2 : Py ℚ} {x1 x2 l1 l2 : ℚ} (h1 : dem1 = .ok x1) (h2 : dem2 = .ok x2)
    (h3 : len1 = .ok l1) (h4 : len2 = .ok l2) (s : Search Move2optStar) :
    test2optStar st C L delta mv dem1 dem2 len1 len2 s = .ok (scan st
      (if (exceeds C C_EPS x1 || exceeds C C_EPS x2 ||
        (exceeds L S_EPS l1 || exceeds L S_EPS l2)) = true then []
        else [(mv (demC C x1), delta)]) s) := by
  subst h1 h2 h3 h4
  unfold test2optStar
  have n1 : ∀ x, over C C_EPS (num (demC C x)) = .ok (exceeds C C_EPS x) := fun x =>
    over_ok (fun h => by rw [demC, if_pos (truthy_iff.2 h)]; rfl)
  rw [ifC_ok (x := x1) (fun _ => rfl), ifC_ok (x := x2) (fun _ => rfl)]
  simp only [bind, Except.bind]
  rw [n1, n1, over_ok (x := l1) (fun _ => rfl), over_ok (x := l2) (fun _ => rfl)]
  split_ifs with g1 g2 g2
  · cases e1 : exceeds C C_EPS x1 <;> cases e2 : exceeds C C_EPS x2 <;>
      cases e3 : exceeds L S_EPS l1 <;> cases e4 : exceeds L S_EPS l2 <;>
      simp_all [pure, Except.pure, scan]
  · cases e1 : exceeds C C_EPS x1 <;> cases e2 : exceeds C C_EPS x2 <;>
      cases e3 : exceeds L S_EPS l1 <;> cases e4 : exceeds L S_EPS l2 <;>
      simp_all [pure, Except.pure, scan_single, tryMove]
  · rfl
  · rw [scan_single, tryMove, if_neg g1]; rfl

/-- The routes after a 2-opt* move. -/
def star1 (r1 r2 : List ℕ) (i j : ℕ) (crossed : Bool) : List ℕ :=
  r1.take (i + 1) ++ (if crossed then (r2.take (j + 1)).reverse else r2.drop (j + 1))

def star2 (r1 r2 : List ℕ) (i j : ℕ) (crossed : Bool) : List ℕ :=
  (r1.drop (i + 1)).reverse ++ (if crossed then r2.drop (j + 1) else (r2.take (j + 1)).reverse)

def violStar (D : ℕ → ℕ → ℚ) (d : Option (ℕ → ℚ)) (C L : Option ℚ) (r1 r2 : List ℕ) (i j : ℕ)
    (x : Bool) : Bool :=
  exceeds C C_EPS (rq d (star1 r1 r2 i j x)) || exceeds C C_EPS (rq d (star2 r1 r2 i j x)) ||
    (exceeds L S_EPS (cost D (star1 r1 r2 i j x)) || exceeds L S_EPS (cost D (star2 r1 r2 i j x)))

/-- The delta of a 2-opt* move and of its first route. -/
def dStar (D : ℕ → ℕ → ℚ) (r1 r2 : List ℕ) (i j : ℕ) (x : Bool) : ℚ :=
  if x then D (nth r1 i) (nth r2 j) + D (nth r1 (i + 1)) (nth r2 (j + 1))
      - D (nth r1 i) (nth r1 (i + 1)) - D (nth r2 j) (nth r2 (j + 1))
  else D (nth r1 i) (nth r2 (j + 1)) + D (nth r1 (i + 1)) (nth r2 j)
      - D (nth r1 i) (nth r1 (i + 1)) - D (nth r2 j) (nth r2 (j + 1))

def dStar1 (D : ℕ → ℕ → ℚ) (r1 r2 : List ℕ) (i j : ℕ) (x : Bool) : ℚ :=
  (if x then D (nth r1 i) (nth r2 j) else D (nth r1 i) (nth r2 (j + 1)))
    - D (nth r1 i) (nth r1 (i + 1))

def candStar (D : ℕ → ℕ → ℚ) (d : Option (ℕ → ℚ)) (C L : Option ℚ) (r1 r2 : List ℕ) (i j : ℕ)
    (x : Bool) : List (Move2optStar × ℚ) :=
  if violStar D d C L r1 r2 i j x = true then []
  else [(⟨i, j, x, dStar1 D r1 r2 i j x, demC C (rq d (star1 r1 r2 i j x))⟩, dStar D r1 r2 i j x)]

def candsStar (D : ℕ → ℕ → ℚ) (d : Option (ℕ → ℚ)) (C L : Option ℚ) (r1 r2 : List ℕ) :
    List (Move2optStar × ℚ) :=
  (pyRange 0 (r1.length - 1)).flatMap fun i => (pyRange 0 (r2.length - 1)).flatMap fun j =>
    candStar D d C L r1 r2 i j true ++ candStar D d C L r1 r2 i j false

theorem mem_candsStar {D : ℕ → ℕ → ℚ} {d : Option (ℕ → ℚ)} {C L : Option ℚ} {r1 r2 : List ℕ}
    {c : Move2optStar × ℚ} : c ∈ candsStar D d C L r1 r2 ↔ ∃ i j x, i + 1 < r1.length ∧
      j + 1 < r2.length ∧ violStar D d C L r1 r2 i j x = false ∧
      c = (⟨i, j, x, dStar1 D r1 r2 i j x, demC C (rq d (star1 r1 r2 i j x))⟩,
        dStar D r1 r2 i j x) := by
  have hc : ∀ i j x, c ∈ candStar D d C L r1 r2 i j x ↔ violStar D d C L r1 r2 i j x = false ∧
      c = (⟨i, j, x, dStar1 D r1 r2 i j x, demC C (rq d (star1 r1 r2 i j x))⟩,
        dStar D r1 r2 i j x) := by
    intro i j x
    unfold candStar
    split_ifs with h
    · simp [h]
    · simp [h]
  unfold candsStar
  simp only [List.mem_flatMap, mem_pyRange, List.mem_append, hc]
  constructor
  · rintro ⟨i, hi, j, hj, h | h⟩
    · exact ⟨i, j, true, by omega, by omega, h⟩
    · exact ⟨i, j, false, by omega, by omega, h⟩
  · rintro ⟨i, j, x, hi, hj, h⟩
    refine ⟨i, by omega, j, by omega, ?_⟩
    cases x
    · exact Or.inr h
    · exact Or.inl h

def resStar (rd1 rd2 : RouteData) (m : Move2optStar) : List RouteData :=
  [⟨star1 rd1.route rd2.route m.i m.j m.crossed, rd1.cost + m.r1_delta, m.r1_new_demand⟩,
    ⟨star2 rd1.route rd2.route m.i m.j m.crossed, rd1.cost + m.r1_delta, m.r1_new_demand⟩]

theorem rq_star1 (d : Option (ℕ → ℚ)) (r1 r2 : List ℕ) (i j : ℕ) (x : Bool) :
    rq d (star1 r1 r2 i j x) = rq d (r1.take (i + 1)) +
      (if x then rq d (r2.take (j + 1)) else rq d (r2.drop (j + 1))) := by
  cases x <;> simp [star1, rq_append, rq_reverse]

theorem rq_star2 (d : Option (ℕ → ℚ)) (r1 r2 : List ℕ) (i j : ℕ) (x : Bool) :
    rq d (star2 r1 r2 i j x) = rq d (r1.drop (i + 1)) +
      (if x then rq d (r2.drop (j + 1)) else rq d (r2.take (j + 1))) := by
  cases x <;> simp [star2, rq_append, rq_reverse]

theorem last_take {r : List ℕ} {i : ℕ} (h : i < r.length) :
    (r.take (i + 1)).getLast? = some (nth r i) := by
  rw [List.getLast?_take]
  simp [nth, h]

theorem head_drop {r : List ℕ} {i : ℕ} (h : i < r.length) :
    (r.drop i).head? = some (nth r i) := by
  simp [nth, h]

theorem cost_star1 {D : ℕ → ℕ → ℚ} (hD : Symm D) {r1 r2 : List ℕ} {i j : ℕ}
    (hi : i + 1 < r1.length) (hj : j + 1 < r2.length) (x : Bool) :
    cost D (star1 r1 r2 i j x) = cost D (r1.take (i + 1)) +
      (if x then D (nth r1 i) (nth r2 j) else D (nth r1 i) (nth r2 (j + 1))) +
      (if x then cost D (r2.take (j + 1)) else cost D (r2.drop (j + 1))) := by
  cases x
  · simp only [star1, Bool.false_eq_true, if_false]
    rw [cost_join (last_take (by omega)) (head_drop hj)]
  · simp only [star1, if_true]
    rw [cost_join (last_take (by omega)) (b := nth r2 j), cost_reverse hD]
    rw [List.head?_reverse, last_take (by omega)]

theorem cost_star2 {D : ℕ → ℕ → ℚ} (hD : Symm D) {r1 r2 : List ℕ} {i j : ℕ}
    (hi : i + 1 < r1.length) (hj : j + 1 < r2.length) (x : Bool) :
    cost D (star2 r1 r2 i j x) = cost D (r1.drop (i + 1)) +
      (if x then D (nth r1 (i + 1)) (nth r2 (j + 1)) else D (nth r1 (i + 1)) (nth r2 j)) +
      (if x then cost D (r2.drop (j + 1)) else cost D (r2.take (j + 1))) := by
  have h1 : (r1.drop (i + 1)).reverse.getLast? = some (nth r1 (i + 1)) := by
    rw [List.getLast?_reverse, head_drop hi]
  cases x
  · simp only [star2, Bool.false_eq_true, if_false]
    rw [cost_join h1 (b := nth r2 j), cost_reverse hD, cost_reverse hD]
    rw [List.head?_reverse, last_take (by omega)]
  · simp only [star2, if_true]
    rw [cost_join h1 (head_drop hj), cost_reverse hD]

theorem do_2optstar_eq {D : ℕ → ℕ → ℚ} (hD : Symm D) {d : Option (ℕ → ℚ)} (h0 : DepotFree d)
    (C L : Option ℚ) {rd1 rd2 : RouteData} (hr1 : DepotEnds rd1.route) (hr2 : DepotEnds rd2.route)
    (st : LSOPT) (bd : Option ℚ) :
    do_2optstar_move rd1 rd2 D d C L st bd = .ok (ganswer (resStar rd1 rd2)
      (scan st (candsStar D d C L rd1.route rd2.route) (none, initDelta bd)).1) := by
  obtain ⟨fl1, fd1, e1, hf1⟩ := aux_fwd (D := D) h0 hr1
  obtain ⟨rl1, rd1', e2, hw1⟩ := aux_bwd hD h0 hr1
  obtain ⟨fl2, fd2, e3, hf2⟩ := aux_fwd (D := D) h0 hr2
  obtain ⟨rl2, rd2', e4, hw2⟩ := aux_bwd hD h0 hr2
  unfold do_2optstar_move
  rw [e1, e2, e3, e4]
  simp only [bind, Except.bind]
  rw [forBreak_scan st (pyRange 0 (rd1.route.length - 1)) (fun i =>
    (pyRange 0 (rd2.route.length - 1)).flatMap fun j =>
    candStar D d C L rd1.route rd2.route i j true ++ candStar D d C L rd1.route rd2.route i j false)]
  · rw [← candsStar]
    rcases hr : scan st (candsStar D d C L rd1.route rd2.route) (none, initDelta bd) with ⟨⟨m, x⟩, b⟩
    cases m <;> rfl
  · intro i hi s
    rw [mem_pyRange] at hi
    refine forBreak_scan st _ _ _ ?_ s
    intro j hj s
    rw [mem_pyRange] at hj
    rw [idx_ok (by omega), idx_ok (by omega), idx_ok (by omega), idx_ok (by omega)]
    simp only
    obtain ⟨a1, a2⟩ := hf1 i (by omega)
    obtain ⟨a3, a4⟩ := hw1 (i + 1) (by omega)
    obtain ⟨a5, a6⟩ := hf2 j (by omega)
    obtain ⟨a7, a8⟩ := hw2 (j + 1) (by omega)
    rw [a1, a2, a3, a4, a5, a6, a7, a8]
    simp only [pure, Except.pure]
    have t1 := fun x => rq_star1 d rd1.route rd2.route i j x
    have t2 := fun x => rq_star2 d rd1.route rd2.route i j x
    have t3 := fun x => cost_star1 hD (r1 := rd1.route) (r2 := rd2.route) (i := i) (j := j)
      (by omega) (by omega) x
    have t4 := fun x => cost_star2 hD (r1 := rd1.route) (r2 := rd2.route) (i := i) (j := j)
      (by omega) (by omega) x
    have u1 := t1 true
    have u2 := t2 true
    have u3 := t3 true
    have u4 := t4 true
    have v1 := t1 false
    have v2 := t2 false
    have v3 := t3 false
    have v4 := t4 false
    simp only [if_true, Bool.false_eq_true, if_false] at u1 u2 u3 u4 v1 v2 v3 v4
    rw [← u1, ← u2, ← u3, ← u4, ← v1, ← v2, ← v3, ← v4]
    rw [test2optStar_eq rfl rfl rfl rfl, scan_append]
    simp only
    rw [test2optStar_eq rfl rfl rfl rfl]
    change (if (scan st (candStar D d C L rd1.route rd2.route i j true) s).2 = true
      then Except.ok ((scan st (candStar D d C L rd1.route rd2.route i j true) s).1, true)
      else Except.ok (scan st (candStar D d C L rd1.route rd2.route i j false)
        (scan st (candStar D d C L rd1.route rd2.route i j true) s).1)) = _
    rcases scan st (candStar D d C L rd1.route rd2.route i j true) s with ⟨s', b⟩
    cases b <;> rfl

theorem candsStar_sound {D : ℕ → ℕ → ℚ} (hD : Symm D) {d : Option (ℕ → ℚ)}
    {C L : Option ℚ} {rd1 rd2 : RouteData} (m : Move2optStar) (x : ℚ)
    (h : (m, x) ∈ candsStar D d C L rd1.route rd2.route) :
    Nb2optStar ([rd1, rd2].map (·.route)) ((resStar rd1 rd2 m).map (·.route)) ∧
      FitsAll D d C L C_EPS S_EPS ((resStar rd1 rd2 m).map (·.route)) ∧
      (∀ rd ∈ (resStar rd1 rd2 m).head?, ∀ f, d = some f → InUse C →
        rd.demand = some (demand f rd.route)) ∧
      total D ((resStar rd1 rd2 m).map (·.route)) = total D ([rd1, rd2].map (·.route)) + x := by
  obtain ⟨i, j, b, hi, hj, hv, hc⟩ := mem_candsStar.1 h
  simp only [Prod.mk.injEq] at hc
  obtain ⟨rfl, rfl⟩ := hc
  simp only [violStar, Bool.or_eq_false_iff] at hv
  obtain ⟨⟨v1, v2⟩, v3, v4⟩ := hv
  have s1 : rd1.route = rd1.route.take (i + 1) ++ rd1.route.drop (i + 1) := by simp
  have s2 : rd2.route = rd2.route.take (j + 1) ++ rd2.route.drop (j + 1) := by simp
  refine ⟨⟨rd1.route.take (i + 1), rd1.route.drop (i + 1), rd2.route.take (j + 1),
    rd2.route.drop (j + 1), ne_of_last (last_take (by omega)), ne_of_head (head_drop hi),
    ne_of_last (last_take (by omega)), ne_of_head (head_drop hj), ?_, ?_⟩, ?_, ?_, ?_⟩
  · simp
  · cases b <;> simp [resStar, star1, star2]
  · intro r hr
    have key : ∀ r, exceeds C C_EPS (rq d r) = false → FitsC d C C_EPS r := by
      rintro r he f rfl
      exact (exceeds_iff _ _ _).1 he
    simp only [resStar, List.map_cons, List.map_nil, List.mem_cons, List.not_mem_nil,
      or_false] at hr
    rcases hr with rfl | rfl
    · exact ⟨key _ v1, fitsL_iff.2 v3⟩
    · exact ⟨key _ v2, fitsL_iff.2 v4⟩
  · intro rd hrd f hf hC
    simp only [resStar, List.head?_cons, Option.mem_some_iff] at hrd
    subst hrd hf
    simp only [demC, if_pos (truthy_iff.2 hC)]
    rfl
  · simp only [resStar, List.map_cons, List.map_nil, total2]
    rw [cost_star1 hD hi hj, cost_star2 hD hi hj]
    have c1 := cost_join (D := D) (last_take (r := rd1.route) (i := i) (by omega)) (head_drop hi)
    have c2 := cost_join (D := D) (last_take (r := rd2.route) (i := j) (by omega)) (head_drop hj)
    rw [← s1] at c1
    rw [← s2] at c2
    rw [c1, c2, dStar]
    cases b
    · simp only [Bool.false_eq_true, if_false]; ring
    · simp only [if_true]; ring

theorem candsStar_complete {D : ℕ → ℕ → ℚ} (hD : Symm D) {d : Option (ℕ → ℚ)} {C L : Option ℚ}
    (hC : InUse C → ∃ f, d = some f)
    {rd1 rd2 : RouteData} (rs : List (List ℕ)) (h : Nb2optStar ([rd1, rd2].map (·.route)) rs)
    (hf : FitsAll D d C L C_EPS S_EPS rs) :
    ∃ c ∈ candsStar D d C L rd1.route rd2.route,
      c.2 = total D rs - total D ([rd1, rd2].map (·.route)) := by
  obtain ⟨A, B, E, F, hA, hB, hE, hF, h1, h2⟩ := h
  simp only [List.map_cons, List.map_nil, List.cons.injEq, and_true] at h1
  obtain ⟨r1, r2⟩ := h1
  obtain ⟨A', a, rfl⟩ : ∃ A' a, A = A' ++ [a] := by
    rcases List.eq_nil_or_concat A with h | ⟨m, x, h⟩
    · exact absurd h hA
    · exact ⟨m, x, by simpa using h⟩
  obtain ⟨E', e, rfl⟩ : ∃ A' a, E = A' ++ [a] := by
    rcases List.eq_nil_or_concat E with h | ⟨m, x, h⟩
    · exact absurd h hE
    · exact ⟨m, x, by simpa using h⟩
  have lB := List.length_pos_iff.2 hB
  have lF := List.length_pos_iff.2 hF
  have hi : A'.length + 1 < rd1.route.length := by rw [r1]; simp; omega
  have hj : E'.length + 1 < rd2.route.length := by rw [r2]; simp; omega
  have key : ∀ x : Bool, rs = [star1 rd1.route rd2.route A'.length E'.length x,
      star2 rd1.route rd2.route A'.length E'.length x] →
      ∃ c ∈ candsStar D d C L rd1.route rd2.route,
        c.2 = total D rs - total D ([rd1, rd2].map (·.route)) := by
    intro x hx
    have hfit : ∀ r, FitsC d C C_EPS r → exceeds C C_EPS (rq d r) = false := by
      intro r hr
      by_cases ht : truthy C = true
      · obtain ⟨f, rfl⟩ := hC (truthy_iff.1 ht)
        exact (exceeds_iff _ _ _).2 (hr f rfl)
      · exact exceeds_truthy (by simpa using ht) _ _
    rw [hx] at hf
    have f1 := hf (star1 rd1.route rd2.route A'.length E'.length x) (by simp)
    have f2 := hf (star2 rd1.route rd2.route A'.length E'.length x) (by simp)
    have hm : ((⟨A'.length, E'.length, x, dStar1 D rd1.route rd2.route A'.length E'.length x,
        demC C (rq d (star1 rd1.route rd2.route A'.length E'.length x))⟩ : Move2optStar),
        dStar D rd1.route rd2.route A'.length E'.length x)
        ∈ candsStar D d C L rd1.route rd2.route := by
      refine mem_candsStar.2 ⟨_, _, x, hi, hj, ?_, rfl⟩
      simp only [violStar, Bool.or_eq_false_iff]
      exact ⟨⟨hfit _ f1.1, hfit _ f2.1⟩, fitsL_iff.1 f1.2, fitsL_iff.1 f2.2⟩
    refine ⟨_, hm, ?_⟩
    have := (candsStar_sound hD _ _ hm).2.2.2
    simp only [resStar, List.map_cons, List.map_nil] at this ⊢
    rw [hx]
    simp only [this]; ring
  have t1 : rd1.route.take (A'.length + 1) = A' ++ [a] := by
    rw [r1, List.take_append_of_le_length (by simp)]
    simp
  have t2 : rd1.route.drop (A'.length + 1) = B := by
    rw [r1, List.drop_append]; simp
  have t3 : rd2.route.take (E'.length + 1) = E' ++ [e] := by
    rw [r2, List.take_append_of_le_length (by simp)]
    simp
  have t4 : rd2.route.drop (E'.length + 1) = F := by
    rw [r2, List.drop_append]; simp
  rcases h2 with h2 | h2
  · refine key true ?_
    rw [h2]; simp only [star1, star2, t1, t2, t3, t4, if_true]
  · refine key false ?_
    rw [h2]; simp only [star1, star2, t1, t2, t3, t4, Bool.false_eq_true, if_false]

end Verif
