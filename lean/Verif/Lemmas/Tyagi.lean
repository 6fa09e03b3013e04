import Verif.Model.Tyagi
import Verif.Spec.Tyagi
import Verif.Lemmas.NearestNeighborLoop
import Verif.Lemmas.InterRoute

/-! # Lemmas for the heuristic of Tyagi -/

namespace Verif
open Spec

theorem keySkip_some {served : ℕ → Bool} {q : List (ℕ × ℚ)} {pos x p : ℕ} (h : keySkip served q pos = some (x, p)) :
    served x = false ∧ ∃ k pre key t, p = pos + k ∧ q = pre ++ (x, key) :: t ∧ pre.length = k ∧
      ∀ e ∈ pre, served e.1 = true := by
  induction q generalizing pos with
  | nil => cases h
  | cons e q ih =>
    rw [keySkip] at h
    by_cases he : served e.1 = true
    · rw [if_pos he] at h
      obtain ⟨h1, k, pre, key, t, h2, h3, h4, h5⟩ := ih h
      refine ⟨h1, k + 1, e :: pre, key, t, by omega, by rw [h3]; rfl, by simp [h4], ?_⟩
      intro z hz
      rcases List.mem_cons.1 hz with rfl | hz
      · exact he
      · exact h5 z hz
    · rw [if_neg he] at h
      injection h with h
      injection h with h1 h2
      subst h1 h2
      exact ⟨by simpa using he, 0, [], e.2, q, rfl, rfl, rfl, by simp⟩

theorem keySkip_none {served : ℕ → Bool} {q : List (ℕ × ℚ)} {pos : ℕ} (h : keySkip served q pos = none) :
    ∀ e ∈ q, served e.1 = true := by
  induction q generalizing pos with
  | nil => simp
  | cons e q ih =>
    rw [keySkip] at h
    by_cases he : served e.1 = true
    · rw [if_pos he] at h
      intro z hz
      rcases List.mem_cons.1 hz with rfl | hz
      · exact he
      · exact ih h z hz
    · rw [if_neg he] at h; cases h

/-- The nodes left in a queue. -/
def KeyQueue.names (q : KeyQueue) : List ℕ := q.rest.map Prod.fst

theorem names_none {served : ℕ → Bool} {q : KeyQueue} (h : keySkip served q.rest q.left = none) :
    ∀ j ∈ q.names, served j = true := by
  intro j hj
  obtain ⟨e, he, rfl⟩ := List.mem_map.1 hj
  exact keySkip_none h e he

theorem names_some {served : ℕ → Bool} {q : KeyQueue} {x p : ℕ} (hq : q.left ≤ q.l.length)
    (h : keySkip served q.rest q.left = some (x, p)) :
    served x = false ∧ x ∈ q.names ∧ (∃ key, q.l[p]? = some (x, key)) ∧
      (∀ j ∈ q.names, served j = false → j ∈ (KeyQueue.mk q.l p).names) ∧
      (∀ j ∈ q.names, served j = false → j ≠ x → j ∈ (KeyQueue.mk q.l (p + 1)).names) := by
  obtain ⟨h1, k, pre, key, t, h2, h3, h4, h5⟩ := keySkip_some h
  have e1 : q.l.drop p = (x, key) :: t := by
    rw [h2, ← List.drop_drop]
    show q.rest.drop k = _
    rw [h3, ← h4, List.drop_left]
  have e2 : q.l.drop (p + 1) = t := by
    rw [← List.drop_drop, e1]; rfl
  refine ⟨h1, ?_, ⟨key, ?_⟩, ?_, ?_⟩
  · rw [KeyQueue.names, h3]; simp
  · have := congrArg (·[0]?) e1
    simpa using this
  · intro j hj hs
    rw [KeyQueue.names, h3] at hj
    rw [KeyQueue.names, KeyQueue.rest, e1]
    rw [List.map_append, List.mem_append] at hj
    rcases hj with hj | hj
    · obtain ⟨e, he, rfl⟩ := List.mem_map.1 hj
      rw [h5 e he] at hs; cases hs
    · exact hj
  · intro j hj hs hx
    rw [KeyQueue.names, h3] at hj
    rw [KeyQueue.names, KeyQueue.rest, e2]
    rw [List.map_append, List.mem_append] at hj
    rcases hj with hj | hj
    · obtain ⟨e, he, rfl⟩ := List.mem_map.1 hj
      rw [h5 e he] at hs; cases hs
    · rw [List.map_cons, List.mem_cons] at hj
      exact hj.resolve_left hx

theorem keyPush_spec {q : KeyQueue} (hq : q.left ≤ q.l.length) (n : ℕ) (key : ℚ) :
    ∃ q', keyPush q n key = .ok q' ∧ q'.left ≤ q'.l.length ∧ (∀ e ∈ q'.l, e ∈ q.l ∨ e = (n, key)) ∧
      (∀ j ∈ q.names, j ∈ q'.names) ∧
      (∀ e, 1 ≤ q.left → q.l[q.left - 1]? = some e → e.2 ≤ key → n ∈ q'.names) := by
  unfold keyPush
  by_cases h0 : q.left = 0
  · rw [if_pos h0]
    exact ⟨q, rfl, hq, fun e he => .inl he, fun j hj => hj, fun e h1 => by omega⟩
  · rw [if_neg h0]
    have hlt : q.left - 1 < q.l.length := by omega
    rw [show idx q.l (q.left - 1) = .ok q.l[q.left - 1] by rw [idx, List.getElem?_eq_getElem hlt]]
    simp only
    by_cases hk : (q.l[q.left - 1]).2 ≤ key
    · rw [if_pos hk]
      have hd : (q.l.set (q.left - 1) (n, key)).drop (q.left - 1) = (n, key) :: q.l.drop q.left := by
        rw [List.drop_eq_getElem_cons (by simpa using hlt)]
        simp only [List.getElem_set_self]
        rw [show q.left - 1 + 1 = q.left by omega, List.drop_set_of_lt (by omega)]
      refine ⟨_, rfl, by simp; omega, ?_, ?_, ?_⟩
      · intro e he
        exact List.mem_or_eq_of_mem_set he
      · intro j hj
        rw [KeyQueue.names, KeyQueue.rest] at hj ⊢
        simp only
        rw [hd]
        simp only [List.map_cons, List.mem_cons]
        exact .inr hj
      · intro e _ _ _
        rw [KeyQueue.names, KeyQueue.rest]
        simp only
        rw [hd]
        simp
    · rw [if_neg hk]
      refine ⟨q, rfl, hq, fun e he => .inl he, fun j hj => hj, fun e h1 h2 h3 => ?_⟩
      rw [List.getElem?_eq_getElem hlt] at h2
      injection h2 with h2
      rw [h2] at hk
      exact absurd h3 hk

theorem tyPushAll_spec {D : ℕ → ℕ → ℚ} {served : ℕ → Bool} {x : ℕ} (is : List ℕ) (hnd : is.Nodup)
    {queues : ℕ → KeyQueue} (hq : ∀ i, (queues i).left ≤ (queues i).l.length) :
    ∃ queues', tyPushAll D served x is queues = .ok queues' ∧
      ∀ i, ((i ∈ is ∧ (i = 0 ∨ served i = false) ∧ i ≠ x) → keyPush (queues i) x (D i x) = .ok (queues' i)) ∧
        (¬ (i ∈ is ∧ (i = 0 ∨ served i = false) ∧ i ≠ x) → queues' i = queues i) := by
  induction is generalizing queues with
  | nil => exact ⟨queues, rfl, fun i => ⟨fun h => (by simp at h), fun _ => rfl⟩⟩
  | cons a is ih =>
    obtain ⟨ha, hnd⟩ := List.nodup_cons.1 hnd
    rw [tyPushAll]
    by_cases hc : ((a = 0 || !served a) && a ≠ x) = true
    · rw [if_pos hc]
      obtain ⟨q', e1, e2, _⟩ := keyPush_spec (hq a) x (D a x)
      rw [e1]
      simp only
      obtain ⟨qs, f1, f2⟩ := ih hnd (queues := fun j => if j = a then q' else queues j) (by
        intro i
        by_cases hi : i = a
        · simp only [hi, if_true]; exact e2
        · simp only [hi, if_false]; exact hq i)
      refine ⟨qs, f1, fun i => ?_⟩
      obtain ⟨g1, g2⟩ := f2 i
      by_cases hi : i = a
      · subst hi
        have := g2 (fun hh => ha hh.1)
        simp only [if_true] at this
        refine ⟨fun _ => this ▸ e1, fun hn => ?_⟩
        exfalso
        apply hn
        simp only [Bool.and_eq_true, Bool.or_eq_true, decide_eq_true_eq, Bool.not_eq_true', ne_eq] at hc
        exact ⟨by simp, hc.1, hc.2⟩
      · simp only [hi, if_false] at g1 g2
        simp only [List.mem_cons, hi, false_or]
        exact ⟨g1, g2⟩
    · rw [if_neg hc]
      obtain ⟨qs, f1, f2⟩ := ih hnd hq
      refine ⟨qs, f1, fun i => ?_⟩
      obtain ⟨g1, g2⟩ := f2 i
      by_cases hi : i = a
      · subst hi
        refine ⟨fun hh => ?_, fun _ => g2 fun hh => ha hh.1⟩
        exfalso
        apply hc
        simp only [Bool.and_eq_true, Bool.or_eq_true, decide_eq_true_eq, Bool.not_eq_true', ne_eq]
        exact ⟨hh.2.1, hh.2.2⟩
      · simp only [List.mem_cons, hi, false_or]
        exact ⟨g1, g2⟩

/-- The cost after replacing one customer. -/
theorem cost_wrap_replace {D : ℕ → ℕ → ℚ} (p q : List ℕ) (x y a b : ℕ) (ha : (0 :: p).getLast? = some a)
    (hb : (q ++ [0]).head? = some b) :
    cost D (wrap (p ++ y :: q)) = cost D (wrap (p ++ x :: q)) + (-D a x - D x b + D a y + D y b) := by
  obtain ⟨w, hw⟩ : ∃ w, 0 :: p = w ++ [a] := ⟨(0 :: p).dropLast, (List.dropLast_append_getLast? a ha).symm⟩
  obtain ⟨t, ht⟩ : ∃ t, q ++ [0] = b :: t := by
    cases hq : q ++ [0] with
    | nil => simp at hq
    | cons c t => rw [hq] at hb; simp only [List.head?_cons, Option.some.injEq] at hb; exact ⟨t, by rw [hb]⟩
  have e : ∀ z, wrap (p ++ z :: q) = w ++ a :: z :: b :: t := by
    intro z
    rw [wrap]
    have : 0 :: (p ++ z :: q ++ [0]) = (0 :: p) ++ z :: (q ++ [0]) := by simp
    rw [this, hw, ht]; simp
  have k : ∀ z, cost D (wrap (p ++ z :: q)) = cost D (w ++ [a]) + D a z + D z b + cost D (b :: t) := by
    intro z
    rw [e, cost_append_cons]
    simp
    ring
  rw [k, k]
  ring

theorem idx_wrap {p q : List ℕ} {x : ℕ} : idx (wrap (p ++ x :: q)) (p.length + 1) = .ok x := by
  rw [idx, wrap]
  simp

theorem tyImproves_spec {D : ℕ → ℕ → ℚ} {d : ℕ → ℚ} {C L : Option ℚ} {u : List ℕ} {rd rl : ℚ}
    (hC : InUse C → rd = demand d u) (hL : InUse L → rl = cost D (wrap u)) (y : ℕ) {i : ℕ} (hi : i < u.length) :
    ∃ b, tyImproves D d C L (wrap u) rd rl y (i + 1) = .ok b ∧ (b = true ↔ BetterGroup D d C L u (u.set i y)) := by
  obtain ⟨p, x, q, rfl, rfl⟩ : ∃ p x q, u = p ++ x :: q ∧ p.length = i := by
    refine ⟨u.take i, u[i], u.drop (i + 1), ?_, by simp; omega⟩
    rw [← List.drop_eq_getElem_cons hi, List.take_append_drop]
  have hset : (p ++ x :: q).set p.length y = p ++ y :: q := by simp
  obtain ⟨a, ha⟩ : ∃ a, (0 :: p).getLast? = some a := ⟨_, List.getLast?_eq_some_getLast (by simp)⟩
  obtain ⟨b, hb⟩ : ∃ b, (q ++ [0]).head? = some b := by cases q <;> simp
  have hcost := cost_wrap_replace (D := D) p q x y a b ha hb
  have hdem : demand d (p ++ y :: q) = demand d (p ++ x :: q) + (-d x + d y) := by
    simp only [demand_append, demand_cons]; ring
  have e1 : idx (wrap (p ++ x :: q)) (p.length + 1 - 1) = .ok a := by
    rw [Nat.add_sub_cancel, idx, wrap]
    rw [List.getLast?_eq_getElem?] at ha
    have : (0 :: (p ++ x :: q ++ [0]))[p.length]? = (0 :: p)[p.length]? := by
      rw [show 0 :: (p ++ x :: q ++ [0]) = (0 :: p) ++ (x :: q ++ [0]) by simp, List.getElem?_append_left (by simp)]
    rw [this]
    simp only [List.length_cons, Nat.add_sub_cancel] at ha
    rw [ha]
  have e2 : idx (wrap (p ++ x :: q)) (p.length + 1 + 1) = .ok b := by
    rw [idx, wrap]
    rw [show 0 :: (p ++ x :: q ++ [0]) = (0 :: p ++ [x]) ++ (q ++ [0]) by simp, List.getElem?_append_right (by simp)]
    rw [List.head?_eq_getElem?] at hb
    simp only [List.length_append, List.length_cons, List.length_nil, Nat.zero_add, Nat.sub_self, hb]
  refine ⟨_, (by unfold tyImproves; rw [idx_wrap, e1, e2]), ?_⟩
  rw [hset, BetterGroup, RouteOk]
  have w1 : (exceeds L S_EPS (rl + (-D a x - D x b + D a y + D y b)) = false) ↔
      Within L S_EPS (cost D (wrap (p ++ y :: q))) := by
    rw [exceeds_iff, hcost]
    by_cases h : InUse L
    · rw [hL h]
    · constructor <;> exact fun _ c hc hc0 => absurd ⟨c, hc, hc0⟩ h
  have w2 : (exceeds C C_EPS (rd + (-d x + d y)) = false) ↔ Within C C_EPS (demand d (p ++ y :: q)) := by
    rw [exceeds_iff, hdem]
    by_cases h : InUse C
    · rw [hC h]
    · constructor <;> exact fun _ c hc hc0 => absurd ⟨c, hc, hc0⟩ h
  have w3 : (-d x + d y > 0) ↔ demand d (p ++ x :: q) < demand d (p ++ y :: q) := by
    rw [hdem]; constructor <;> intro h <;> linarith
  have w4 : (-D a x - D x b + D a y + D y b < 0) ↔ cost D (wrap (p ++ y :: q)) < cost D (wrap (p ++ x :: q)) := by
    rw [hcost]; constructor <;> intro h <;> linarith
  rw [Bool.and_eq_true, Bool.and_eq_true, Bool.not_eq_true', Bool.not_eq_true', w1, w2, Bool.or_eq_true,
    Bool.and_eq_true, Bool.and_eq_true, Bool.and_eq_true, decide_eq_true_eq, decide_eq_true_eq, w3, w4,
    Bool.not_eq_true', truthy_iff, truthy_iff, ← truthy_iff (c := C), Bool.not_eq_true, and_comm (a := Within L S_EPS _),
    and_assoc (a := truthy C = false)]

theorem tyChoose_spec {D : ℕ → ℕ → ℚ} {d : ℕ → ℚ} {C L : Option ℚ} {u : List ℕ} {rd rl : ℚ}
    (hC : InUse C → rd = demand d u) (hL : InUse L → rl = cost D (wrap u)) (y : ℕ) (is : List ℕ)
    (hi : ∀ i ∈ is, i < u.length) (best : Option ℕ) :
    (tyChoose D d C L (wrap u) rd rl y (is.map (· + 1)) best = .ok best ∧
        ∀ i ∈ is, ¬ BetterGroup D d C L u (u.set i y)) ∨
      ∃ is1 i is2, is = is1 ++ i :: is2 ∧
        tyChoose D d C L (wrap u) rd rl y (is.map (· + 1)) best = .ok (some (i + 1)) ∧
        BetterGroup D d C L u (u.set i y) ∧ ∀ j ∈ is2, ¬ BetterGroup D d C L u (u.set j y) := by
  induction is generalizing best with
  | nil => exact .inl ⟨rfl, by simp⟩
  | cons i is ih =>
    obtain ⟨b, hb, hb'⟩ := tyImproves_spec hC hL y (hi i (by simp))
    rw [List.map_cons, tyChoose, hb]
    simp only
    rcases ih (fun j hj => hi j (by simp [hj])) (if b then some (i + 1) else best) with ⟨e1, e2⟩ | ⟨is1, j, is2, e1, e2, e3, e4⟩
    · rw [e1]
      cases b with
      | true => exact .inr ⟨[], i, is, rfl, rfl, hb'.1 rfl, e2⟩
      | false =>
        refine .inl ⟨rfl, fun j hj => ?_⟩
        rcases List.mem_cons.1 hj with rfl | hj
        · exact fun hh => by have := hb'.2 hh; cases this
        · exact e2 j hj
    · exact .inr ⟨i :: is1, j, is2, by rw [e1]; rfl, e2, e3, e4⟩

/-- The order in which the interchange looks at the places of a group with `n` customers, and the last good one
of them is `i`. -/
def LastGood (all : Bool) (n : ℕ) (good : ℕ → Prop) (i : ℕ) : Prop :=
  good i ∧ i < n ∧ (all = true → ∀ j, i < j → j < n → ¬ good j) ∧
    (all = false → (i = 0 ∨ i = n - 1) ∧ (i ≠ 0 → ¬ good 0))

/-- No place is good. -/
def NoneGood (all : Bool) (n : ℕ) (good : ℕ → Prop) : Prop :=
  (all = true → ∀ j < n, ¬ good j) ∧ (all = false → ¬ good 0 ∧ ¬ good (n - 1))

theorem interchange_spec {D : ℕ → ℕ → ℚ} {d : ℕ → ℚ} {C L : Option ℚ} {N : ℕ} {all : Bool} {u : List ℕ} {rd rl : ℚ}
    (hC : InUse C → rd = demand d u) (hL : InUse L → rl = cost D (wrap u)) {last y pos : ℕ}
    {served : ℕ → Bool} {queues : ℕ → KeyQueue} (hlast : u.getLast? = some last)
    (hq : ∀ i, (queues i).left ≤ (queues i).l.length) (hp : pos ≤ (queues last).l.length)
    (hy : keySkip served (queues last).rest (queues last).left = some (y, pos)) :
    (route_end_interchange D d C L N all (wrap u) rd rl served queues = .ok (wrap u, served, setLeft queues last pos) ∧
      NoneGood all u.length fun i => BetterGroup D d C L u (u.set i y)) ∨
    ∃ i x queues', LastGood all u.length (fun i => BetterGroup D d C L u (u.set i y)) i ∧ u[i]? = some x ∧
      route_end_interchange D d C L N all (wrap u) rd rl served queues =
        .ok (wrap (u.set i y), setRouted (setRouted served y true) x false, queues') ∧
      tyPushAll D (setRouted served y true) x (List.range N) (setLeft queues last pos) = .ok queues' := by
  have hu : u ≠ [] := by rintro rfl; cases hlast
  have hn : 0 < u.length := List.length_pos_of_ne_nil hu
  have hlen : (wrap u).length = u.length + 2 := by simp [wrap]
  have e1 : idxNeg (wrap u) 2 = .ok last := by
    rw [idxNeg, if_neg (by rw [hlen]; omega), hlen, Nat.add_sub_cancel]
    rw [List.getLast?_eq_getElem?] at hlast
    rw [idx, wrap]
    obtain ⟨n, hn'⟩ : ∃ n, u.length = n + 1 := ⟨u.length - 1, by omega⟩
    rw [hn'] at hlast ⊢
    rw [Nat.add_sub_cancel] at hlast
    rw [List.getElem?_cons_succ, List.getElem?_append_left (by omega), hlast]
  have hset : ∀ i, i < u.length → slice (wrap u) 0 (i + 1) ++ [y] ++ (wrap u).drop (i + 1 + 1) = wrap (u.set i y) := by
    intro i hi
    obtain ⟨p, x, q, rfl, rfl⟩ : ∃ p x q, u = p ++ x :: q ∧ p.length = i := by
      refine ⟨u.take i, u[i], u.drop (i + 1), ?_, by simp; omega⟩
      rw [← List.drop_eq_getElem_cons hi, List.take_append_drop]
    have : (p ++ x :: q).set p.length y = p ++ y :: q := by simp
    rw [this, wrap, wrap, slice]
    have : 0 :: (p ++ x :: q ++ [0]) = (0 :: p) ++ x :: (q ++ [0]) := by simp
    rw [this, List.drop_zero]
    have h1 : ((0 :: p) ++ x :: (q ++ [0])).take (p.length + 1) = 0 :: p := by
      rw [show p.length + 1 = (0 :: p).length by simp, List.take_left]
    have h2 : ((0 :: p) ++ x :: (q ++ [0])).drop (p.length + 1 + 1) = q ++ [0] := by
      rw [← List.drop_drop, show p.length + 1 = (0 :: p).length by simp, List.drop_left]; rfl
    rw [h1, h2]; simp
  have hql : ∀ i, (setLeft queues last pos i).left ≤ (setLeft queues last pos i).l.length := by
    intro i
    unfold setLeft
    by_cases h : i = last
    · subst h; simp only [if_true]; exact hp
    · simp only [h, if_false]; exact hq i
  obtain ⟨is, his, hmem, hgood⟩ : ∃ is : List ℕ, (if all then pyRange 1 ((wrap u).length - 1) else [(wrap u).length - 2, 1]) =
      is.map (· + 1) ∧ (∀ i ∈ is, i < u.length) ∧
      (∀ good : ℕ → Prop, ((∀ i ∈ is, ¬ good i) → NoneGood all u.length good) ∧
        ∀ is1 i is2, is = is1 ++ i :: is2 → good i → (∀ j ∈ is2, ¬ good j) → LastGood all u.length good i) := by
    cases all with
    | true =>
      refine ⟨List.range u.length, ?_, fun i hi => List.mem_range.1 hi, fun good => ⟨?_, ?_⟩⟩
      · rw [if_pos rfl, hlen, pyRange, List.range'_eq_map_range]
        simp only [Nat.add_comm 1]
        rfl
      · intro h; exact ⟨fun _ j hj => h j (List.mem_range.2 hj), fun h => by cases h⟩
      · intro is1 i is2 h hg hn2
        have hi : i < u.length := List.mem_range.1 (by rw [h]; simp)
        refine ⟨hg, hi, fun _ j h1 h2 => hn2 j ?_, fun h => by cases h⟩
        have hj : j ∈ is1 ++ i :: is2 := h ▸ List.mem_range.2 h2
        have hs : (is1 ++ i :: is2).Pairwise (· < ·) := h ▸ List.pairwise_lt_range
        rcases List.mem_append.1 hj with hj | hj
        · have := (List.pairwise_append.1 hs).2.2 j hj i (by simp); omega
        · rcases List.mem_cons.1 hj with rfl | hj
          · omega
          · exact hj
    | false =>
      refine ⟨[u.length - 1, 0], ?_, ?_, fun good => ⟨?_, ?_⟩⟩
      · rw [if_neg (by simp), hlen]; simp; omega
      · intro i hi; simp at hi; omega
      · intro h; exact ⟨fun h => (by cases h), fun _ => ⟨h 0 (by simp), h _ (by simp)⟩⟩
      · intro is1 i is2 h hg hn2
        match is1, h with
        | [], h =>
          injection h with h1 h2
          subst h1 h2
          exact ⟨hg, by omega, fun h => (by cases h), fun _ => ⟨.inr rfl, fun _ => hn2 0 (by simp)⟩⟩
        | [b], h =>
          injection h with h1 h2
          injection h2 with h2 h3
          subst h1 h2 h3
          exact ⟨hg, by omega, fun h => (by cases h), fun _ => ⟨.inl rfl, fun h => absurd rfl h⟩⟩
        | b :: c :: t, h => simp at h
  unfold route_end_interchange
  rw [e1]
  simp only
  rw [hy]
  simp only
  rw [his]
  rcases tyChoose_spec hC hL y is hmem none with ⟨f1, f2⟩ | ⟨is1, i, is2, f1, f2, f3, f4⟩
  · rw [f1]
    exact .inl ⟨rfl, (hgood _).1 f2⟩
  · rw [f2]
    simp only
    have hi : i < u.length := hmem i (by rw [f1]; simp)
    have hx : idx (wrap u) (i + 1) = .ok u[i] := by
      rw [idx, wrap, List.getElem?_cons_succ, List.getElem?_append_left hi, List.getElem?_eq_getElem hi]
    rw [hx]
    simp only
    obtain ⟨queues', g1, g2⟩ := tyPushAll_spec (D := D) (served := setRouted served y true) (x := u[i]) (List.range N)
      List.nodup_range hql
    rw [g1, hset i hi]
    exact .inr ⟨i, u[i], queues', (hgood _).2 is1 i is2 f1 f3 f4, List.getElem?_eq_getElem hi, rfl, g1⟩

end Verif
