import Verif.Lemmas.InterRoute

/-! # Lemmas for the insertion of customers -/

namespace Verif
open Spec

/-- A position where a node may be inserted. -/
def PosOk (D : ℕ → ℕ → ℚ) (L : Option ℚ) (route : List ℕ) (l : ℚ) (n i : ℕ) : Prop :=
  1 ≤ i ∧ i < route.length ∧ exceeds L S_EPS (l + insDelta D route i n) = false

/-- The loop over positions. -/
theorem posLoop_spec {D : ℕ → ℕ → ℚ} {L : Option ℚ} {route : List ℕ} {l : ℚ} {n : ℕ} (stop : Bool)
    (ps : List ℕ) (hps : ∀ i ∈ ps, 1 ≤ i ∧ i < route.length) (best : Option (ℕ × ℚ)) :
    ∃ r b, forBreak ps best (fun i best => do
        let insert_after ← idx route (i - 1)
        let insert_before ← idx route i
        let insert_delta := D insert_after n + D n insert_before
          - D insert_after insert_before
        if exceeds L S_EPS (l + insert_delta) then pure (best, false)
        else
          let best' := match best with
            | none => some (i, insert_delta)
            | some (p, x) => if insert_delta < x then some (i, insert_delta) else some (p, x)
          pure (best', stop)) = .ok (r, b) ∧
      (r = best ∨ ∃ p ∈ ps, PosOk D L route l n p ∧ r = some (p, insDelta D route p n)) ∧
      (r = none → ∀ i ∈ ps, ¬ PosOk D L route l n i) ∧
      (stop = false → ∀ p x, r = some (p, x) →
        (∀ i ∈ ps, PosOk D L route l n i → x ≤ insDelta D route i n) ∧
        (∀ q y, best = some (q, y) → x ≤ y)) := by
  induction ps generalizing best with
  | nil =>
    refine ⟨best, false, rfl, Or.inl rfl, by simp, ?_⟩
    rintro - p x rfl
    refine ⟨by simp, ?_⟩
    rintro q y h
    simp only [Option.some.injEq, Prod.mk.injEq] at h
    rw [h.2]
  | cons i t ih =>
    obtain ⟨h1, h2⟩ := hps i (by simp)
    have ht : ∀ i ∈ t, 1 ≤ i ∧ i < route.length := fun i hi => hps i (List.mem_cons_of_mem _ hi)
    rw [forBreak, idx_ok (by omega), idx_ok (by omega)]
    simp only [bind, Except.bind]
    have hd : D (nth route (i - 1)) n + D n (nth route i) - D (nth route (i - 1)) (nth route i)
        = insDelta D route i n := rfl
    rw [hd]
    cases he : exceeds L S_EPS (l + insDelta D route i n)
    · simp only [Bool.false_eq_true, if_false]
      have hok : PosOk D L route l n i := ⟨h1, h2, he⟩
      generalize hb : (match best with
            | none => some (i, insDelta D route i n)
            | some (p, x) => if insDelta D route i n < x then some (i, insDelta D route i n)
              else some (p, x)) = best'
      have hb1 : best' = best ∨ best' = some (i, insDelta D route i n) := by
        subst hb
        rcases best with _ | ⟨q, y⟩
        · right; rfl
        · simp only; split_ifs
          · right; rfl
          · left; rfl
      have hb2 : ∃ p x, best' = some (p, x) ∧ x ≤ insDelta D route i n ∧
          ∀ q y, best = some (q, y) → x ≤ y := by
        subst hb
        rcases best with _ | ⟨q, y⟩
        · exact ⟨_, _, rfl, le_refl _, by simp⟩
        · simp only; split_ifs with hlt
          · refine ⟨_, _, rfl, le_refl _, ?_⟩
            rintro q' y' h
            simp only [Option.some.injEq, Prod.mk.injEq] at h
            rw [← h.2]; exact le_of_lt hlt
          · refine ⟨_, _, rfl, not_lt.1 hlt, ?_⟩
            rintro q' y' h
            simp only [Option.some.injEq, Prod.mk.injEq] at h
            rw [h.2]
      obtain ⟨p0, x0, e0, e1, e2⟩ := hb2
      cases stop
      · simp only [pure, Except.pure]
        obtain ⟨r, b, g1, g2, g3, g4⟩ := ih ht best'
        refine ⟨r, b, g1, ?_, ?_, ?_⟩
        · rcases g2 with rfl | ⟨p, hp, k⟩
          · rcases hb1 with h | h
            · left; exact h
            · right; exact ⟨i, by simp, hok, h⟩
          · right; exact ⟨p, List.mem_cons_of_mem _ hp, k⟩
        · rintro rfl
          rcases g2 with g2 | ⟨p, hp, k, k'⟩
          · rw [e0] at g2; simp at g2
          · simp at k'
        · intro _ p x hr
          obtain ⟨f1, f2⟩ := g4 rfl p x hr
          have f3 := f2 p0 x0 e0
          refine ⟨?_, fun q y hq => le_trans f3 (e2 q y hq)⟩
          intro j hj hjo
          rcases List.mem_cons.1 hj with rfl | hj
          · exact le_trans f3 e1
          · exact f1 j hj hjo
      · refine ⟨best', true, rfl, ?_, ?_, by simp⟩
        · rcases hb1 with h | h
          · left; exact h
          · right; exact ⟨i, by simp, hok, h⟩
        · rintro rfl; simp at e0
    · have hno : ¬ PosOk D L route l n i := by
        rintro ⟨-, -, h⟩; rw [he] at h; simp at h
      simp only [if_true, pure, Except.pure]
      obtain ⟨r, b, g1, g2, g3, g4⟩ := ih ht best
      refine ⟨r, b, g1, ?_, ?_, ?_⟩
      · rcases g2 with g2 | ⟨p, hp, k⟩
        · left; exact g2
        · right; exact ⟨p, List.mem_cons_of_mem _ hp, k⟩
      · intro hr j hj
        rcases List.mem_cons.1 hj with rfl | hj
        · exact hno
        · exact g3 hr j hj
      · intro hs p x hr
        obtain ⟨f1, f2⟩ := g4 hs p x hr
        refine ⟨?_, f2⟩
        intro j hj hjo
        rcases List.mem_cons.1 hj with rfl | hj
        · exact absurd hjo hno
        · exact f1 j hj hjo

theorem idxNeg_ok {l : List ℕ} {k : ℕ} (h1 : 1 ≤ k) (h2 : k ≤ l.length) :
    idxNeg l k = .ok (nth l (l.length - k)) := by
  unfold idxNeg
  rw [if_neg (by omega), idx_ok (by omega)]

theorem nth_last {l : List ℕ} (h : l.getLast? = some 0) : nth l (l.length - 1) = 0 := by
  obtain ⟨t, rfl⟩ := getLast_zero_split h
  simp [nth]

/-- The search for a position: nothing only if no position is within the limit, otherwise a position
within the limit; the cheapest with best accept. -/
theorem insertPos_spec {D : ℕ → ℕ → ℚ} {L : Option ℚ} {st : LSOPT} {route : List ℕ} (l : ℚ) (n : ℕ)
    (isLast : Bool) (hr : DepotEnds route) (h2 : 2 ≤ route.length) :
    ∃ r, insertPos D L st route l n isLast = .ok r ∧
      (r = none → ∀ i, ¬ PosOk D L route l n i) ∧
      (∀ p x, r = some (p, x) → PosOk D L route l n p ∧ x = insDelta D route p n ∧
        (st = .BEST_ACCEPT → ∀ i, PosOk D L route l n i → x ≤ insDelta D route i n)) := by
  unfold insertPos
  split_ifs with hb
  · obtain ⟨r, b, g1, g2, g3, g4⟩ := posLoop_spec (D := D) (L := L) (l := l) (n := n)
      (st == .FIRST_ACCEPT && isLast) (pyRange 1 route.length)
      (fun i hi => by rw [mem_pyRange] at hi; exact hi) none
    refine ⟨r, congrArg (fun z : Py (Option (ℕ × ℚ) × Bool) =>
      z >>= fun x => (pure x.1 : Py (Option (ℕ × ℚ)))) g1, ?_, ?_⟩
    · intro h i hi
      exact g3 h i (by rw [mem_pyRange]; exact ⟨hi.1, hi.2.1⟩) hi
    · rintro p x rfl
      rcases g2 with g2 | ⟨p', hp, k, k'⟩
      · simp at g2
      · simp only [Option.some.injEq, Prod.mk.injEq] at k'
        obtain ⟨rfl, rfl⟩ := k'
        refine ⟨k, rfl, ?_⟩
        rintro rfl i hi
        exact (g4 rfl _ _ rfl).1 i (by rw [mem_pyRange]; exact ⟨hi.1, hi.2.1⟩) hi
  · push Not at hb
    rw [idxNeg_ok (by omega) h2]
    refine ⟨_, rfl, by simp, ?_⟩
    rintro p x h
    simp only [Option.some.injEq, Prod.mk.injEq] at h
    obtain ⟨rfl, rfl⟩ := h
    refine ⟨⟨by omega, by omega, exceeds_truthy (by simpa using hb.2) _ _⟩, ?_,
      fun h => absurd h hb.1⟩
    unfold insDelta
    rw [nth_last hr.2, show route.length - 1 - 1 = route.length - 2 by omega]

theorem ins_sublist (r : List ℕ) (p n : ℕ) : r.Sublist (r.take p ++ [n] ++ r.drop p) := by
  have h1 : (r.take p ++ r.drop p).Sublist (r.take p ++ [n] ++ r.drop p) :=
    List.Sublist.append (List.sublist_append_left _ _) (List.Sublist.refl _)
  rwa [List.take_append_drop] at h1

theorem ins_perm (r : List ℕ) (p n : ℕ) : (r.take p ++ [n] ++ r.drop p).Perm (n :: r) := by
  have h : (r.take p ++ [n] ++ r.drop p).Perm ([n] ++ r.take p ++ r.drop p) :=
    List.Perm.append_right _ List.perm_append_comm
  refine h.trans ?_
  rw [List.append_assoc, List.take_append_drop]; rfl

theorem ins_ends {r : List ℕ} {p n : ℕ} (hr : DepotEnds r) (h1 : 1 ≤ p) (h2 : p < r.length) :
    DepotEnds (r.take p ++ [n] ++ r.drop p) := by
  obtain ⟨c1, c2, c3⟩ := cut2 h1 h2
  refine ⟨?_, ?_⟩
  · have := hr.1
    cases r with
    | nil => simp at this
    | cons a t =>
      obtain ⟨p, rfl⟩ : ∃ q, p = q + 1 := ⟨p - 1, by omega⟩
      simpa using this
  · rw [getLast_append_ne (ne_of_head c3), List.getLast?_drop, if_neg (by omega)]
    exact hr.2

theorem rq_perm (d : Option (ℕ → ℚ)) {l r : List ℕ} (h : l.Perm r) : rq d l = rq d r := by
  cases d with
  | none => rfl
  | some f => exact demand_perm f h

theorem insertLoop_spec {D : ℕ → ℕ → ℚ} {d : Option (ℕ → ℚ)} {C L : Option ℚ} {st : LSOPT}
    {bd : Option ℚ} (hC : InUse C → ∃ f, d = some f) (nodes : List ℕ) (route : List ℕ)
    (hr : DepotEnds route) (h2 : 2 ≤ route.length) (dd : Option ℚ)
    (hdd : InUse C → ∃ q, dd = some q) (tot : ℚ) :
    ∃ r, insertLoop D d C L st bd nodes route (cost D route) dd tot = .ok r ∧
      ∀ rds t, r = some (rds, t) → ∃ rd', rds = [RouteData.new, rd'] ∧
        route.Sublist rd'.route ∧ rd'.route.Perm (nodes ++ route) ∧ DepotEnds rd'.route ∧
        rd'.cost = cost D rd'.route ∧ t = tot + (cost D rd'.route - cost D route) ∧
        (∀ q, InUse C → dd = some q → rd'.demand = some (q + rq d nodes)) ∧
        (nodes ≠ [] → FitsL D L S_EPS rd'.route) ∧
        (nodes ≠ [] → ∀ b, bd = some b → t + S_EPS ≤ b) := by
  induction nodes generalizing route dd tot with
  | nil =>
    refine ⟨_, rfl, ?_⟩
    rintro rds t h
    simp only [Option.some.injEq, Prod.mk.injEq] at h
    obtain ⟨rfl, rfl⟩ := h
    refine ⟨_, rfl, List.Sublist.refl _, List.Perm.refl _, hr, rfl, by simp, ?_, by simp, by simp⟩
    rintro q - rfl
    cases d <;> simp [rq]
  | cons n t ih =>
    obtain ⟨r, e1, e2, e3⟩ := insertPos_spec (D := D) (L := L) (st := st) (cost D route) n
      (t == []) hr h2
    rw [insertLoop, e1]
    simp only [bind, Except.bind]
    rcases r with _ | ⟨p, x⟩
    · exact ⟨none, rfl, by simp⟩
    · obtain ⟨⟨p1, p2, p3⟩, rfl, -⟩ := e3 p x rfl
      simp only
      obtain ⟨dd', hd1, hd2, hd3⟩ : ∃ dd', addDem d C dd n = .ok dd' ∧
          (InUse C → ∃ q, dd' = some q) ∧ (∀ q, InUse C → dd = some q →
            dd' = some (q + dq d n)) := by
        unfold addDem
        by_cases ht : truthy C = true
        · obtain ⟨q, rfl⟩ := hdd (truthy_iff.1 ht)
          obtain ⟨f, rfl⟩ := hC (truthy_iff.1 ht)
          rw [if_pos ht]
          refine ⟨_, rfl, fun _ => ⟨_, rfl⟩, ?_⟩
          rintro q' - h
          simp only [Option.some.injEq] at h
          subst h; rfl
        · rw [if_neg ht]
          exact ⟨dd, rfl, hdd, fun q h => absurd (truthy_iff.2 h) ht⟩
      rw [hd1]
      simp only
      split_ifs with hw
      · exact ⟨none, rfl, by simp⟩
      · have hlen : 2 ≤ (route.take p ++ [n] ++ route.drop p).length := by
          have := (ins_perm route p n).length_eq
          rw [this]; simp; omega
        rw [← cost_ins p1 p2]
        obtain ⟨r, g1, g2⟩ := ih (route.take p ++ [n] ++ route.drop p) (ins_ends hr p1 p2) hlen dd'
          hd2 (tot + insDelta D route p n)
        refine ⟨r, g1, ?_⟩
        intro rds t' hres
        obtain ⟨rd', k1, k2, k3, k4, k5, k6, k7, k8, k9⟩ := g2 rds t' hres
        refine ⟨rd', k1, (ins_sublist route p n).trans k2, ?_, k4, k5, ?_, ?_, ?_, ?_⟩
        · refine k3.trans ?_
          refine ((ins_perm route p n).append_left t).trans ?_
          exact List.perm_middle
        · rw [k6, cost_ins p1 p2]; ring
        · intro q hCu hq
          rw [k7 _ hCu (hd3 q hCu hq)]
          have : rq d (n :: t) = dq d n + rq d t := by
            rw [← List.singleton_append, rq_append, rq_single]
          rw [this]; congr 1; ring
        · intro _
          by_cases ht : t = []
          · subst ht
            have hfit : FitsL D L S_EPS (route.take p ++ [n] ++ route.drop p) := by
              rw [fitsL_iff, cost_ins p1 p2]; exact p3
            have hp : rd'.route = route.take p ++ [n] ++ route.drop p :=
              (k2.eq_of_length (by rw [k3.length_eq]; simp)).symm
            rw [hp]; exact hfit
          · exact k8 ht
        · intro _ b hb
          by_cases ht : t = []
          · subst ht hb
            simp only [gt_iff_lt, decide_eq_true_eq, not_lt] at hw
            have hp : rd'.route = route.take p ++ [n] ++ route.drop p :=
              (k2.eq_of_length (by rw [k3.length_eq]; simp)).symm
            rw [k6, hp]; linarith
          · exact k9 ht b hb

theorem demSum_ok (f : ℕ → ℚ) (l : List ℕ) : demSum (some f) l = .ok (rq (some f) l) := by
  induction l with
  | nil => rfl
  | cons n t ih => rw [demSum, ih]; rfl

/-- The common part of the three ways to give the customers. -/
theorem insert_core {D : ℕ → ℕ → ℚ} {d : Option (ℕ → ℚ)} {C L : Option ℚ} {rd : RouteData}
    (b : Book D d C rd) (hr : DepotEnds rd.route) (h2 : 2 ≤ rd.route.length) (st : LSOPT)
    (bd : Option ℚ) (ns : List ℕ) {und : Py ℚ} (hund : InUse C → und = .ok (rq d ns)) :
    ∃ r, (do
      let viol ← over C C_EPS (do
        let ansatz_d ← num rd.demand
        let x ← und
        pure (ansatz_d + x))
      if viol then pure none
      else insertLoop D d C L st bd ns rd.route rd.cost rd.demand 0) = .ok r ∧
      ∀ rds t, r = some (rds, t) → ∃ rd', rds = [RouteData.new, rd'] ∧
        Inserted D d C L ns rd rd' t ∧ (ns ≠ [] → ∀ x, bd = some x → t + S_EPS ≤ x) := by
  rw [over_ok (x := rq d rd.route + rq d ns)]
  · simp only [bind, Except.bind]
    cases hv : exceeds C C_EPS (rq d rd.route + rq d ns)
    · simp only [Bool.false_eq_true, if_false]
      rw [b.1]
      obtain ⟨r, e1, e2⟩ := insertLoop_spec (D := D) (d := d) (C := C) (L := L) (st := st)
        (bd := bd) (fun h => by obtain ⟨f, hf, -⟩ := b.2 h; exact ⟨f, hf⟩) ns rd.route hr h2
        rd.demand (fun h => by obtain ⟨f, -, hf⟩ := b.2 h; exact ⟨_, hf⟩) 0
      refine ⟨r, e1, ?_⟩
      intro rds t h
      obtain ⟨rd', k1, k2, k3, k4, k5, k6, k7, k8, k9⟩ := e2 rds t h
      have hq : rq d rd'.route = rq d rd.route + rq d ns := by
        rw [rq_perm d k3, rq_append]; ring
      refine ⟨rd', k1, ⟨k2, k3, k4, ⟨k5, ?_⟩, by rw [k6]; ring, ?_, ?_⟩, k9⟩
      · intro hC
        obtain ⟨f, rfl, hf⟩ := b.2 hC
        refine ⟨f, rfl, ?_⟩
        rw [k7 _ hC hf]
        exact congrArg some hq.symm
      · rw [fitsC_iff b, hq]; exact hv
      · intro h
        by_cases hn : ns = []
        · subst hn
          have hp : rd'.route = rd.route := (k2.eq_of_length (by rw [k3.length_eq]; simp)).symm
          rw [hp]; exact h.resolve_left (by simp)
        · exact k8 hn
    · exact ⟨none, rfl, by simp⟩
  · intro h
    rw [book_demand b h, hund h]; rfl

theorem customers_tail {u : List ℕ} (hu : DepotEnds u) (h2 : 2 ≤ u.length) :
    u = 0 :: (u.tail.dropLast ++ [0]) := by
  obtain ⟨t, rfl⟩ := getLast_zero_split hu.2
  cases t with
  | nil => simp at h2
  | cons a t =>
    have := hu.1
    simp at this
    subst this
    simp

/-- Completeness for one customer without a bound. -/
theorem insert_one {D : ℕ → ℕ → ℚ} {d : Option (ℕ → ℚ)} {C L : Option ℚ} {rd : RouteData}
    (b : Book D d C rd) (hr : DepotEnds rd.route) (h2 : 2 ≤ rd.route.length) (st : LSOPT) (n : ℕ) :
    ∃ r, do_insert_move (.node n) rd D d C L st none = .ok r ∧
      (r = none → FitsC d C C_EPS (n :: rd.route) → ∀ A B, A ≠ [] → B ≠ [] → rd.route = A ++ B →
        ¬ FitsL D L S_EPS (A ++ [n] ++ B)) ∧
      (st = .BEST_ACCEPT → ∀ rds t, r = some (rds, t) → ∀ A B, A ≠ [] → B ≠ [] →
        rd.route = A ++ B → FitsL D L S_EPS (A ++ [n] ++ B) →
        t ≤ cost D (A ++ [n] ++ B) - cost D rd.route) := by
  have key : ∀ A B, A ≠ [] → B ≠ [] → rd.route = A ++ B →
      1 ≤ A.length ∧ A.length < rd.route.length ∧
      cost D (A ++ [n] ++ B) = cost D rd.route + insDelta D rd.route A.length n := by
    intro A B hA hB h
    have lA := List.length_pos_iff.2 hA
    have lB := List.length_pos_iff.2 hB
    have l1 : A.length < rd.route.length := by rw [h]; simp; omega
    refine ⟨lA, l1, ?_⟩
    rw [← cost_ins lA l1, h]; simp
  unfold do_insert_move
  simp only
  rw [over_ok (x := rq d rd.route + rq d [n])]
  · simp only [bind, Except.bind]
    cases hv : exceeds C C_EPS (rq d rd.route + rq d [n])
    · simp only [Bool.false_eq_true, if_false]
      obtain ⟨r, e1, e2, e3⟩ := insertPos_spec (D := D) (L := L) (st := st) rd.cost n
        (([] : List ℕ) == []) hr h2
      rw [insertLoop, e1]
      simp only [bind, Except.bind]
      rcases r with _ | ⟨p, x⟩
      · refine ⟨none, rfl, ?_, by simp⟩
        intro _ _ A B hA hB h hf
        obtain ⟨l1, l2, l3⟩ := key A B hA hB h
        refine e2 rfl A.length ⟨l1, l2, ?_⟩
        rw [b.1, ← l3]; exact fitsL_iff.1 hf
      · obtain ⟨hp, rfl, hbest⟩ := e3 p x rfl
        have hdd : ∃ dd, addDem d C rd.demand n = .ok dd := by
          unfold addDem
          by_cases ht : truthy C = true
          · obtain ⟨f, rfl, hf⟩ := b.2 (truthy_iff.1 ht)
            rw [if_pos ht, hf]
            exact ⟨_, rfl⟩
          · rw [if_neg ht]; exact ⟨_, rfl⟩
        obtain ⟨dd, hdd⟩ := hdd
        simp only [hdd, Bool.false_eq_true, if_false, insertLoop]
        refine ⟨_, rfl, by simp, ?_⟩
        rintro hst rds t h A B hA hB hAB hf
        simp only [Option.some.injEq, Prod.mk.injEq] at h
        obtain ⟨-, rfl⟩ := h
        obtain ⟨l1, l2, l3⟩ := key A B hA hB hAB
        have := hbest hst A.length ⟨l1, l2, by rw [b.1, ← l3]; exact fitsL_iff.1 hf⟩
        rw [l3]; linarith
    · simp only [if_true]
      refine ⟨none, rfl, ?_, by simp⟩
      intro _ hf
      exfalso
      rw [fitsC_iff b] at hf
      have : rq d (n :: rd.route) = rq d rd.route + rq d [n] := by
        rw [← List.singleton_append, rq_append]; ring
      rw [this, hv] at hf
      simp at hf
  · intro h
    obtain ⟨f, rfl, -⟩ := b.2 h
    rw [book_demand b h, demSum_ok]; rfl

end Verif
