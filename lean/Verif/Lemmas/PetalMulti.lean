import Verif.Spec.Petal
import Verif.Lemmas.Basic
import Mathlib.Data.List.Nodup
import Mathlib.Data.List.Induction

/-! # Lemmas on the removal of repeated visits -/

namespace Verif
open Spec

/-- The visits to a customer, counted from a route on. -/
def visits (o : ℕ) (us : List (List ℕ)) (n : ℕ) : List (ℕ × ℕ) :=
  match us with
  | [] => []
  | u :: us => if n ∈ u then (o, u.idxOf n + 1) :: visits (o + 1) us n else visits (o + 1) us n

theorem filter_zipIdx_idxOf {n : ℕ} : ∀ {u : List ℕ} (o : ℕ), u.Nodup →
    (u.zipIdx o).filter (fun v => decide (v.1 = n)) = if n ∈ u then [(n, o + u.idxOf n)] else []
  | [], _, _ => rfl
  | a :: u, o, h => by
    rw [List.nodup_cons] at h
    rw [List.zipIdx_cons, List.filter_cons, filter_zipIdx_idxOf (o + 1) h.2]
    by_cases e : a = n
    · subst e
      simp [h.1]
    · have e' : n ≠ a := fun x => e x.symm
      by_cases hn : n ∈ u
      · simp [e, hn, List.idxOf_cons_ne u e]
        omega
      · simp [e, e', hn]

theorem msVisits_eq {n : ℕ} (hn : n ≠ 0) {us : List (List ℕ)} (h : ∀ u ∈ us, u.Nodup) :
    msVisits (us.map wrap) n = visits 0 us n := by
  unfold msVisits
  have key : ∀ o, ((us.map wrap).zipIdx o).flatMap (fun r =>
      (r.1.zipIdx.filter fun v => decide (v.1 = n)).map fun v => (r.2, v.2)) = visits o us n := by
    induction us with
    | nil => intro o; rfl
    | cons u us ih =>
      intro o
      have h1 := filter_zipIdx_idxOf (n := n) 1 (h u (List.mem_cons_self ..))
      have h2 : ((wrap u).zipIdx.filter fun v => decide (v.1 = n)) =
          if n ∈ u then [(n, 1 + u.idxOf n)] else [] := by
        unfold wrap
        rw [List.zipIdx_cons, List.zipIdx_append, List.filter_cons, List.filter_append, h1]
        simp [hn.symm]
      rw [List.map_cons, List.zipIdx_cons, List.flatMap_cons, ih fun v hv => h v (List.mem_cons_of_mem _ hv)]
      show List.map _ (List.filter _ _) ++ _ = _
      rw [h2]
      by_cases hm : n ∈ u
      · simp [hm, visits, Nat.add_comm]
      · simp [hm, visits]
  exact key 0

theorem mem_visits {n k i : ℕ} : ∀ {us : List (List ℕ)} {o : ℕ}, (k, i) ∈ visits o us n ↔
    ∃ (j : ℕ) (u : List ℕ), k = o + j ∧ us[j]? = some u ∧ n ∈ u ∧ i = u.idxOf n + 1
  | [], o => by simp [visits]
  | u :: us, o => by
    have ih := mem_visits (n := n) (k := k) (i := i) (us := us) (o := o + 1)
    have : (k, i) ∈ visits o (u :: us) n ↔ (k = o ∧ n ∈ u ∧ i = u.idxOf n + 1) ∨ (k, i) ∈ visits (o + 1) us n := by
      rw [visits]
      by_cases h : n ∈ u <;> simp [h]
    rw [this, ih]
    constructor
    · rintro (⟨rfl, h, rfl⟩ | ⟨j, v, rfl, h1, h2, h3⟩)
      · exact ⟨0, u, by simp, by simp, h, rfl⟩
      · exact ⟨j + 1, v, by omega, by simpa using h1, h2, h3⟩
    · rintro ⟨j, v, rfl, h1, h2, h3⟩
      cases j with
      | zero =>
        simp at h1
        subst h1
        exact .inl ⟨by simp, h2, h3⟩
      | succ j => exact .inr ⟨j, v, by omega, by simpa using h1, h2, h3⟩

/-- The visits are listed by the numbers of their routes, in increasing order. -/
theorem visits_sorted {n : ℕ} : ∀ (us : List (List ℕ)) (o : ℕ),
    (visits o us n).Pairwise (fun a b => a.1 < b.1)
  | [], _ => by simp [visits]
  | u :: us, o => by
    have ih := visits_sorted (n := n) us (o + 1)
    rw [visits]
    by_cases h : n ∈ u
    · rw [if_pos h, List.pairwise_cons]
      refine ⟨?_, ih⟩
      rintro ⟨k, i⟩ hk
      obtain ⟨j, v, h1, _⟩ := mem_visits.1 hk
      simp only
      omega
    · rwa [if_neg h]

theorem idxOf_erase {n m : ℕ} (hne : m ≠ n) : ∀ {u : List ℕ}, u.Nodup → n ∈ u → m ∈ u →
    (u.erase n).idxOf m = if u.idxOf n < u.idxOf m then u.idxOf m - 1 else u.idxOf m
  | [], _, h, _ => by simp at h
  | a :: u, hnd, hn, hm => by
    rw [List.nodup_cons] at hnd
    by_cases e : a = n
    · subst e
      rw [List.erase_cons_head, List.idxOf_cons_self, List.idxOf_cons_ne u (Ne.symm hne)]
      simp
    · have hn' : n ∈ u := by simpa [Ne.symm e] using hn
      rw [List.erase_cons_tail (by simpa using e), List.idxOf_cons_ne u e]
      by_cases f : a = m
      · subst f
        simp
      · have hm' : m ∈ u := by simpa [Ne.symm f] using hm
        have ih := idxOf_erase hne hnd.2 hn' hm'
        rw [List.idxOf_cons_ne _ f, List.idxOf_cons_ne u f, ih]
        by_cases g : u.idxOf n < u.idxOf m
        · rw [if_pos g, if_pos (by omega)]
          omega
        · rw [if_neg g, if_neg (by omega)]

/-- The positions of another customer after a visit was removed. -/
theorem visits_set {n m : ℕ} (hne : m ≠ n) : ∀ {us : List (List ℕ)} {o j : ℕ} {u : List ℕ},
    (∀ v ∈ us, v.Nodup) → us[j]? = some u → n ∈ u →
    visits o (us.set j (u.erase n)) m =
      (visits o us m).map fun p => if p.1 = o + j ∧ u.idxOf n + 1 < p.2 then (p.1, p.2 - 1) else p
  | [], _, _, _, _, h, _ => by simp at h
  | v :: us, o, 0, u, hnd, h, hn => by
    simp at h
    subst h
    have hrest : (visits (o + 1) us m).map
        (fun p => if p.1 = o + 0 ∧ v.idxOf n + 1 < p.2 then (p.1, p.2 - 1) else p) = visits (o + 1) us m := by
      conv_rhs => rw [← List.map_id (visits (o + 1) us m)]
      apply List.map_congr_left
      rintro ⟨k, i⟩ hk
      obtain ⟨j, w, h1, _⟩ := mem_visits.1 hk
      rw [if_neg (by simp only; omega)]
      rfl
    rw [List.set_cons_zero, visits, visits]
    have hmem : m ∈ v.erase n ↔ m ∈ v := List.mem_erase_of_ne hne
    by_cases hm : m ∈ v
    · rw [if_pos (hmem.2 hm), if_pos hm, List.map_cons, hrest, idxOf_erase hne (hnd v (List.mem_cons_self ..)) hn hm]
      congr 1
      have hd : v.idxOf n ≠ v.idxOf m := by
        intro e
        have := List.getElem_idxOf (List.idxOf_lt_length_iff.2 hm)
        have h2 := List.getElem_idxOf (List.idxOf_lt_length_iff.2 hn)
        simp only [e] at h2
        exact hne (this.symm.trans h2)
      by_cases g : v.idxOf n < v.idxOf m
      · rw [if_pos g, if_pos ⟨by simp, by simp only; omega⟩]
        simp only [Prod.mk.injEq, true_and]
        omega
      · rw [if_neg g, if_neg (by simp only; omega)]
    · rw [if_neg (fun h => hm (hmem.1 h)), if_neg hm, hrest]
  | v :: us, o, j + 1, u, hnd, h, hn => by
    have ih := visits_set hne (us := us) (o := o + 1) (j := j) (u := u)
      (fun w hw => hnd w (List.mem_cons_of_mem _ hw)) (by simpa using h) hn
    have e : o + 1 + j = o + (j + 1) := by omega
    rw [List.set_cons_succ, visits, visits, ih, e]
    by_cases hm : m ∈ v
    · rw [if_pos hm, if_pos hm, List.map_cons, if_neg (by simp only; omega)]
    · rw [if_neg hm, if_neg hm]

theorem wrap_eraseIdx {n : ℕ} {u : List ℕ} (hn : n ∈ u) : (wrap u).eraseIdx (u.idxOf n + 1) = wrap (u.erase n) := by
  unfold wrap
  rw [List.eraseIdx_cons_succ, List.eraseIdx_append_of_lt_length (List.idxOf_lt_length_iff.2 hn),
    List.erase_eq_eraseIdx_of_idxOf rfl]

theorem msDelta_eq {D : ℕ → ℕ → ℚ} {us : List (List ℕ)} {k n : ℕ} {u : List ℕ} (hk : us[k]? = some u)
    (hn : n ∈ u) : msDelta D (us.map wrap) k (u.idxOf n + 1) = .ok (-visitCost D n u) := by
  obtain ⟨A, B, rfl, hA⟩ : ∃ A B : List ℕ, u = A ++ n :: B ∧ n ∉ A := by
    exact List.eq_append_cons_of_mem hn
  have hi : (A ++ n :: B).idxOf n = A.length := by
    rw [List.idxOf_append_of_notMem hA]
    simp
  have he : (A ++ n :: B).erase n = A ++ B := by
    rw [List.erase_append_right _ hA, List.erase_cons_head]
  obtain ⟨P, p, hP⟩ : ∃ P p, 0 :: A = P ++ [p] := by
    rcases List.eq_nil_or_concat (0 :: A) with h | ⟨P, p, h⟩
    · simp at h
    · exact ⟨P, p, by simpa using h⟩
  obtain ⟨q, Q, hQ⟩ : ∃ q Q, B ++ [0] = q :: Q := by
    cases B with
    | nil => exact ⟨0, [], rfl⟩
    | cons q Q => exact ⟨q, Q ++ [0], rfl⟩
  have hlen : A.length = P.length := by
    have := congrArg List.length hP
    simpa using this
  have e1 : wrap (A ++ n :: B) = P ++ p :: n :: q :: Q := by
    unfold wrap
    rw [List.append_assoc, List.cons_append, hQ, ← List.cons_append, hP]
    simp
  have e2 : wrap (A ++ B) = P ++ p :: q :: Q := by
    unfold wrap
    rw [List.append_assoc, hQ, ← List.cons_append, hP]
    simp
  have hr : idx (us.map wrap) k = .ok (P ++ p :: n :: q :: Q) := by
    simp [idx, hk, e1]
  have hd : visitCost D n (A ++ n :: B) = D p n + D n q - D p q := by
    unfold visitCost
    rw [he, e1, e2, cost_append_two, cost_append_two]
    simp
    ring
  have i1 : idx (P ++ p :: n :: q :: Q) A.length = .ok p := by
    simp [idx, hlen]
  have i2 : idx (P ++ p :: n :: q :: Q) (A.length + 1) = .ok n := by
    simp [idx, hlen]
  have i3 : idx (P ++ p :: n :: q :: Q) (A.length + 1 + 1) = .ok q := by
    have e : P.length + 1 + 1 = P.length + 2 := rfl
    unfold idx
    rw [hlen, e, List.getElem?_append_right (by omega)]
    simp
  unfold msDelta
  rw [hi, hr, hd]
  simp only [Nat.add_eq_zero_iff, one_ne_zero, and_false, if_false, Nat.add_sub_cancel]
  show (do
    let nfrom ← idx (P ++ p :: n :: q :: Q) A.length
    let nvia ← idx (P ++ p :: n :: q :: Q) (A.length + 1)
    let nto ← idx (P ++ p :: n :: q :: Q) (A.length + 1 + 1)
    pure (D nfrom nto - D nfrom nvia - D nvia nto) : Py ℚ) = _
  rw [i1, i2, i3]
  show Except.ok _ = Except.ok _
  congr 1
  ring

/-- The visit that is kept: a best one, the first of them. -/
theorem msKeep_spec {D : ℕ → ℕ → ℚ} {us : List (List ℕ)} {n : ℕ} : ∀ (sl : List (ℕ × ℕ)) (done : List (ℕ × ℕ))
    (best : Option (ℚ × ℕ × ℕ)),
    (∀ p ∈ done ++ sl, ∃ u, us[p.1]? = some u ∧ n ∈ u ∧ p.2 = u.idxOf n + 1) →
    (done ++ sl).Pairwise (fun a b => a.1 < b.1) →
    (best = none → done = []) →
    (∀ b k i, best = some (b, k, i) → (k, i) ∈ done ∧ ∃ u, us[k]? = some u ∧ b = -visitCost D n u ∧
      ∀ p ∈ done, ∀ v, us[p.1]? = some v → visitCost D n u ≤ visitCost D n v ∧ (p.1 < k → visitCost D n u < visitCost D n v)) →
    done ++ sl ≠ [] →
    ∃ b k i u, msKeep D (us.map wrap) sl best = .ok (some (b, k, i)) ∧ (k, i) ∈ done ++ sl ∧ us[k]? = some u ∧
      ∀ p ∈ done ++ sl, ∀ v, us[p.1]? = some v →
        visitCost D n u ≤ visitCost D n v ∧ (p.1 < k → visitCost D n u < visitCost D n v)
  | [], done, best, _, _, h1, h2, h3 => by
    rcases best with _ | ⟨b, k, i⟩
    · exact absurd (by simpa using h1 rfl) h3
    · obtain ⟨h4, u, h5, h6, h7⟩ := h2 b k i rfl
      exact ⟨b, k, i, u, rfl, by simpa using h4, h5, by simpa using h7⟩
  | (ri, ni) :: sl, done, best, hval, hs, h1, h2, h3 => by
    obtain ⟨v, hv, hn, hni⟩ := hval (ri, ni) (by simp)
    simp only at hv hni
    have hd : msDelta D (us.map wrap) ri ni = .ok (-visitCost D n v) := by rw [hni, msDelta_eq hv hn]
    have happ : done ++ (ri, ni) :: sl = (done ++ [(ri, ni)]) ++ sl := by simp
    have hlt : ∀ p ∈ done, p.1 < ri := by
      intro p hp
      exact (List.pairwise_append.1 hs).2.2 p hp (ri, ni) (List.mem_cons_self ..)
    rw [happ] at hval hs h3 ⊢
    unfold msKeep
    rw [hd]
    rcases best with _ | ⟨b, k, i⟩
    · have hdone := h1 rfl
      subst hdone
      refine msKeep_spec sl _ _ hval hs (by simp) ?_ h3
      rintro b k i h
      simp only [Option.some.injEq, Prod.mk.injEq] at h
      obtain ⟨rfl, rfl, rfl⟩ := h
      refine ⟨by simp, v, hv, rfl, ?_⟩
      intro p hp w hw
      simp only [List.nil_append, List.mem_singleton] at hp
      subst hp
      simp only [hv, Option.some.injEq] at hw
      subst hw
      exact ⟨le_refl _, fun h => absurd h (lt_irrefl _)⟩
    · obtain ⟨h4, u, h5, h6, h7⟩ := h2 b k i rfl
      simp only
      by_cases hb : b < -visitCost D n v
      · rw [if_pos hb]
        refine msKeep_spec sl _ _ hval hs (by simp) ?_ h3
        rintro b' k' i' h
        simp only [Option.some.injEq, Prod.mk.injEq] at h
        obtain ⟨rfl, rfl, rfl⟩ := h
        refine ⟨by simp, v, hv, rfl, ?_⟩
        intro p hp w hw
        rcases List.mem_append.1 hp with hp | hp
        · have := (h7 p hp w hw).1
          constructor
          · linarith
          · intro _
            linarith
        · simp only [List.mem_singleton] at hp
          subst hp
          simp only [hv, Option.some.injEq] at hw
          subst hw
          exact ⟨le_refl _, fun h => absurd h (lt_irrefl _)⟩
      · rw [if_neg hb]
        refine msKeep_spec sl _ _ hval hs (by simp) ?_ h3
        rintro b' k' i' h
        simp only [Option.some.injEq, Prod.mk.injEq] at h
        obtain ⟨rfl, rfl, rfl⟩ := h
        refine ⟨by simp [h4], u, h5, h6, ?_⟩
        intro p hp w hw
        rcases List.mem_append.1 hp with hp | hp
        · exact h7 p hp w hw
        · simp only [List.mem_singleton] at hp
          subst hp
          simp only [hv, Option.some.injEq] at hw
          subst hw
          refine ⟨by linarith, fun h => ?_⟩
          have := hlt (k, i) h4
          simp only at this h
          omega

/-- The routes after the visits of a list were removed, but for the one on the route `k`. -/
def dropped (n k : ℕ) (sl : List (ℕ × ℕ)) (us : List (List ℕ)) : List (List ℕ) :=
  sl.foldl (fun us p => if p.1 = k then us else us.set p.1 ((us.getD p.1 []).erase n)) us

theorem msDelete_spec {n k i : ℕ} {ms : List ℕ} (hms : n ∉ ms) : ∀ (sl : List (ℕ × ℕ)) (us : List (List ℕ)),
    (∀ u ∈ us, u.Nodup) → (∀ p ∈ sl, ∃ u, us[p.1]? = some u ∧ n ∈ u ∧ p.2 = u.idxOf n + 1) →
    (∀ p ∈ sl, p.1 = k → p.2 = i) → sl.Pairwise (fun a b => a.1 < b.1) →
    msDelete k i sl (us.map wrap) (ms.map (visits 0 us)) =
      .ok ((dropped n k sl us).map wrap, ms.map (visits 0 (dropped n k sl us))) ∧
    (∀ u ∈ dropped n k sl us, u.Nodup)
  | [], us, hnd, _, _, _ => ⟨rfl, hnd⟩
  | (rri, rni) :: sl, us, hnd, hval, hk, hs => by
    obtain ⟨u, hu, hn, hi⟩ := hval (rri, rni) (List.mem_cons_self ..)
    simp only at hu hi
    rw [List.pairwise_cons] at hs
    unfold msDelete dropped
    rw [List.foldl_cons]
    by_cases e : rri = k
    · have := hk (rri, rni) (List.mem_cons_self ..) e
      simp only at this
      rw [if_pos ⟨e.symm, this.symm⟩, if_pos e]
      exact msDelete_spec hms sl us hnd (fun p hp => hval p (List.mem_cons_of_mem _ hp))
        (fun p hp => hk p (List.mem_cons_of_mem _ hp)) hs.2
    · have hlt : rri < us.length := (List.getElem?_eq_some_iff.1 hu).1
      have hget : us.getD rri [] = u := by simp [List.getD, hu]
      have hidx : idx (us.map wrap) rri = .ok (wrap u) := by simp [idx, hu]
      have hl : rni < (wrap u).length := by
        have := List.idxOf_lt_length_iff.2 hn
        simp [wrap]
        omega
      have hset : (us.map wrap).set rri ((wrap u).eraseIdx rni) = (us.set rri (u.erase n)).map wrap := by
        rw [hi, wrap_eraseIdx hn, List.map_set]
      have hlater : (ms.map (visits 0 us)).map (fun slu => slu.map fun p =>
          if p.1 = rri ∧ rni < p.2 then (p.1, p.2 - 1) else p) = ms.map (visits 0 (us.set rri (u.erase n))) := by
        rw [List.map_map]
        apply List.map_congr_left
        intro m hm
        have hne : m ≠ n := fun h => hms (h ▸ hm)
        rw [visits_set hne hnd hu hn]
        simp [hi]
      rw [if_neg (fun h => e h.1.symm), hidx, if_neg e]
      simp only
      rw [if_pos hl, hset, hlater, hget]
      have hund : u.Nodup := hnd u (List.mem_of_getElem? hu)
      refine msDelete_spec hms sl _ ?_ ?_ (fun p hp => hk p (List.mem_cons_of_mem _ hp)) hs.2
      · intro v hv
        rcases List.mem_or_eq_of_mem_set hv with hv | rfl
        · exact hnd v hv
        · exact hund.erase _
      · intro p hp
        obtain ⟨v, h1, h2, h3⟩ := hval p (List.mem_cons_of_mem _ hp)
        have hlt2 := hs.1 p hp
        simp only at hlt2
        exact ⟨v, by rw [List.getElem?_set_ne (by omega)]; exact h1, h2, h3⟩

theorem dropped_get {n k : ℕ} : ∀ (sl : List (ℕ × ℕ)) (us : List (List ℕ)) (j : ℕ),
    sl.Pairwise (fun a b => a.1 < b.1) →
    (dropped n k sl us)[j]? = (us[j]?).map fun v => if j ≠ k ∧ j ∈ sl.map (·.1) then v.erase n else v
  | [], us, j, _ => by simp [dropped]
  | p :: sl, us, j, hs => by
    rw [List.pairwise_cons] at hs
    unfold dropped
    rw [List.foldl_cons]
    have hnot : ∀ x, p.1 = x → x ∉ sl.map (·.1) := by
      rintro x rfl hx
      obtain ⟨q, hq, e⟩ := List.mem_map.1 hx
      have := hs.1 q hq
      omega
    by_cases e : p.1 = k
    · rw [if_pos e]
      have ih := dropped_get (n := n) (k := k) sl us j hs.2
      unfold dropped at ih
      rw [ih]
      congr 1
      funext v
      by_cases f : j = k
      · simp [f]
      · have : j ≠ p.1 := fun h => f (h.trans e)
        have hiff : j ∈ (p :: sl).map (·.1) ↔ j ∈ sl.map (·.1) := by
          rw [List.map_cons, List.mem_cons]
          exact ⟨fun h => h.resolve_left this, .inr⟩
        exact if_congr (and_congr_right fun _ => hiff.symm) rfl rfl
    · rw [if_neg e]
      have ih := dropped_get (n := n) (k := k) sl (us.set p.1 ((us.getD p.1 []).erase n)) j hs.2
      unfold dropped at ih
      rw [ih]
      by_cases f : j = p.1
      · subst f
        by_cases hl : p.1 < us.length
        · rw [List.getElem?_set_self hl, List.getElem?_eq_getElem hl]
          have hg : us.getD p.1 [] = us[p.1] := by simp [List.getD, hl]
          rw [hg]
          have h3 := hnot p.1 rfl
          simp only [Option.map_some, Option.some.injEq]
          rw [if_neg (fun h => h3 h.2), if_pos ⟨e, by simp⟩]
        · rw [List.getElem?_eq_none (by simpa using hl), List.getElem?_eq_none (by simpa using hl)]
          rfl
      · rw [List.getElem?_set_ne (fun h => f h.symm)]
        congr 1
        funext v
        have hiff : j ∈ (p :: sl).map (·.1) ↔ j ∈ sl.map (·.1) := by
          rw [List.map_cons, List.mem_cons]
          exact ⟨fun h => h.resolve_left f, .inr⟩
        exact if_congr (and_congr_right fun _ => hiff.symm) rfl rfl

/-- One customer is treated. -/
theorem msStep_spec {D : ℕ → ℕ → ℚ} {us : List (List ℕ)} {n : ℕ} {ms : List ℕ} (hms : n ∉ ms)
    (hnd : ∀ u ∈ us, u.Nodup) (hn : n ∈ us.flatten) :
    ∃ b k i vs, msKeep D (us.map wrap) (visits 0 us n) none = .ok (some (b, k, i)) ∧
      msDelete k i (visits 0 us n) (us.map wrap) (ms.map (visits 0 us)) = .ok (vs.map wrap, ms.map (visits 0 vs)) ∧
      (∀ u ∈ vs, u.Nodup) ∧ KeepCheapest D n us vs := by
  have hval : ∀ p ∈ visits 0 us n, ∃ u, us[p.1]? = some u ∧ n ∈ u ∧ p.2 = u.idxOf n + 1 := by
    rintro ⟨k, i⟩ hp
    obtain ⟨j, u, h1, h2, h3, h4⟩ := mem_visits.1 hp
    have : k = j := by omega
    subst this
    exact ⟨u, h2, h3, h4⟩
  have hne : visits 0 us n ≠ [] := by
    obtain ⟨u, hu, hnu⟩ := List.mem_flatten.1 hn
    obtain ⟨j, hj⟩ := List.getElem?_of_mem hu
    have : (0 + j, u.idxOf n + 1) ∈ visits 0 us n := mem_visits.2 ⟨j, u, rfl, hj, hnu, rfl⟩
    exact List.ne_nil_of_mem this
  obtain ⟨b, k, i, u, h1, h2, h3, h4⟩ := msKeep_spec (D := D) (us := us) (n := n) (visits 0 us n) [] none
    (by simpa using hval) (by simpa using visits_sorted us 0) (by simp) (by simp) (by simpa using hne)
  simp only [List.nil_append] at h2 h4
  obtain ⟨u', hu', hnu, hi⟩ := hval _ h2
  simp only at hu' hi
  have : u' = u := by simpa [h3] using hu'.symm
  subst this
  obtain ⟨h5, h6⟩ := msDelete_spec (n := n) (k := k) (i := i) hms (visits 0 us n) us hnd hval (by
    intro p hp e
    obtain ⟨w, e1, e2, e3⟩ := hval p hp
    rw [e, h3] at e1
    simp only [Option.some.injEq] at e1
    rw [e3, hi, e1]) (visits_sorted us 0)
  refine ⟨b, k, i, _, h1, h5, h6, k, u', h3, hnu, ?_, ?_, ?_⟩
  · intro j v hj hv
    exact h4 (0 + j, v.idxOf n + 1) (mem_visits.2 ⟨j, v, rfl, hj, hv, rfl⟩) v (by simpa using hj) |>.imp id
      (by simp)
  · have : ∀ (sl : List (ℕ × ℕ)) (ws : List (List ℕ)), (dropped n k sl ws).length = ws.length := by
      intro sl
      induction sl with
      | nil => intro ws; rfl
      | cons p sl ih =>
        intro ws
        unfold dropped at ih ⊢
        rw [List.foldl_cons, ih]
        by_cases e : p.1 = k
        · rw [if_pos e]
        · rw [if_neg e, List.length_set]
    exact this _ _
  · intro j v hj
    rw [dropped_get _ _ _ (visits_sorted us 0), hj]
    simp only [Option.map_some, Option.some.injEq]
    by_cases e : j = k
    · simp [e]
    · rw [if_neg e]
      by_cases hv : n ∈ v
      · rw [if_pos]
        exact ⟨e, List.mem_map.2 ⟨(0 + j, v.idxOf n + 1), mem_visits.2 ⟨j, v, rfl, hj, hv, rfl⟩, by simp⟩⟩
      · rw [List.erase_of_not_mem hv, ite_self]

/-! ## The result -/

theorem keep_sublist {D : ℕ → ℕ → ℚ} {n : ℕ} {us vs : List (List ℕ)} (h : KeepCheapest D n us vs) :
    List.Forall₂ List.Sublist vs us := by
  obtain ⟨k, u, _, _, _, hl, hg⟩ := h
  rw [List.forall₂_iff_get]
  refine ⟨hl, fun i h1 h2 => ?_⟩
  have := hg i us[i] (List.getElem?_eq_getElem h2)
  rw [List.getElem?_eq_getElem h1, Option.some.injEq] at this
  simp only [List.get_eq_getElem]
  rw [this]
  by_cases e : i = k
  · rw [if_pos e]
  · rw [if_neg e]
    exact List.erase_sublist

theorem sum_indicator : ∀ (l : List ℕ) (k : ℕ), k < l.length →
    (∀ (j x : ℕ), l[j]? = some x → x = if j = k then 1 else 0) → l.sum = 1
  | [], k, h, _ => by simp at h
  | a :: l, 0, _, hx => by
    have h0 := hx 0 a rfl
    have : ∀ x ∈ l, x = 0 := by
      intro x hx'
      obtain ⟨j, hj⟩ := List.getElem?_of_mem hx'
      simpa using hx (j + 1) x (by simpa using hj)
    simp [h0, List.sum_eq_zero this]
  | a :: l, k + 1, h, hx => by
    have h0 := hx 0 a rfl
    have ih := sum_indicator l k (by simpa using h) (by
      intro j x hj
      simpa using hx (j + 1) x (by simpa using hj))
    simp [h0, ih]

theorem keep_count {D : ℕ → ℕ → ℚ} {n : ℕ} {us vs : List (List ℕ)} (hnd : ∀ u ∈ us, u.Nodup)
    (h : KeepCheapest D n us vs) (m : ℕ) :
    vs.flatten.count m = if m = n then 1 else us.flatten.count m := by
  obtain ⟨k, u, hk, hn, _, hl, hg⟩ := h
  rw [List.count_flatten, List.count_flatten]
  by_cases e : m = n
  · subst e
    rw [if_pos rfl]
    have hklt := (List.getElem?_eq_some_iff.1 hk).1
    refine sum_indicator _ k (by simpa [hl] using hklt) ?_
    intro j x hj
    rw [List.getElem?_map, Option.map_eq_some_iff] at hj
    obtain ⟨w, hw, rfl⟩ := hj
    have hjlt : j < us.length := by
      have := (List.getElem?_eq_some_iff.1 hw).1
      omega
    have := hg j us[j] (List.getElem?_eq_getElem hjlt)
    rw [hw, Option.some.injEq] at this
    have hndj := hnd us[j] (List.getElem_mem hjlt)
    by_cases f : j = k
    · subst f
      rw [if_pos rfl] at this
      rw [List.getElem?_eq_getElem hjlt, Option.some.injEq] at hk
      rw [if_pos rfl, this, hk]
      exact List.count_eq_one_of_mem (hk ▸ hndj) hn
    · rw [if_neg f] at this
      rw [if_neg f, this]
      exact List.count_eq_zero.2 hndj.not_mem_erase
  · rw [if_neg e]
    congr 1
    apply List.ext_getElem?
    intro j
    rw [List.getElem?_map, List.getElem?_map]
    by_cases hj : j < us.length
    · have := hg j us[j] (List.getElem?_eq_getElem hj)
      rw [this, List.getElem?_eq_getElem hj]
      by_cases f : j = k
      · rw [if_pos f]
      · rw [if_neg f, Option.map_some, Option.map_some, List.count_erase_of_ne e]
    · rw [List.getElem?_eq_none (by omega), List.getElem?_eq_none (by omega)]

theorem msLoop_spec {D : ℕ → ℕ → ℚ} : ∀ (ms : List ℕ) (us : List (List ℕ)), ms.Nodup → (∀ u ∈ us, u.Nodup) →
    (∀ n ∈ ms, n ∈ us.flatten) →
    ∃ vs, msLoop D ms.length (ms.map (visits 0 us)) (us.map wrap) = .ok (vs.map wrap) ∧
      KeepCheapestAll D ms us vs ∧ (∀ u ∈ vs, u.Nodup) ∧ List.Forall₂ List.Sublist vs us ∧
      ∀ m, vs.flatten.count m = if m ∈ ms then 1 else us.flatten.count m
  | [], us, _, hnd, _ => ⟨us, rfl, rfl, hnd, List.forall₂_same.2 fun _ _ => List.Sublist.refl _, by simp⟩
  | n :: ms, us, hms, hnd, hmem => by
    rw [List.nodup_cons] at hms
    obtain ⟨b, k, i, vs, h1, h2, h3, h4⟩ := msStep_spec (D := D) hms.1 hnd (hmem n (List.mem_cons_self ..))
    have hc := keep_count hnd h4
    obtain ⟨ws, e1, e2, e3, e4, e5⟩ := msLoop_spec ms vs hms.2 h3 (by
      intro m hm
      rw [← List.count_pos_iff, hc m]
      by_cases e : m = n
      · simp [e]
      · rw [if_neg e, List.count_pos_iff]
        exact hmem m (List.mem_cons_of_mem _ hm))
    refine ⟨ws, ?_, ⟨vs, h4, e2⟩, e3, ?_, ?_⟩
    · rw [List.map_cons, List.length_cons]
      unfold msLoop
      rw [h1]
      simp only
      rw [h2]
      exact e1
    · have hs := keep_sublist h4
      rw [List.forall₂_iff_get] at e4 hs ⊢
      exact ⟨e4.1.trans hs.1, fun j a b => (e4.2 j a (by omega)).trans (hs.2 j (by omega) b)⟩
    · intro m
      rw [e5 m, hc m]
      by_cases f : m = n
      · subst f
        simp
      · simp [f]

/-- The elements at the places where they occur for the time `c + 1`. -/
def nthVisits (c : ℕ) (l : List ℕ) : List ℕ :=
  (l.zipIdx.filter fun e => decide ((l.take e.2).count e.1 = c)).map (·.1)

theorem nthVisits_concat (c : ℕ) (l : List ℕ) (a : ℕ) :
    nthVisits c (l ++ [a]) = nthVisits c l ++ if l.count a = c then [a] else [] := by
  unfold nthVisits
  rw [List.zipIdx_append, List.filter_append, List.map_append]
  congr 1
  · congr 1
    apply List.filter_congr
    rintro ⟨x, i⟩ hx
    have : i < l.length := by
      have := List.mem_zipIdx hx
      omega
    simp only
    rw [List.take_append_of_le_length (by omega)]
  · by_cases h : l.count a = c <;> simp [h]

theorem nthVisits_spec (c : ℕ) (l : List ℕ) : (nthVisits c l).Nodup ∧ ∀ m, m ∈ nthVisits c l ↔ c < l.count m := by
  induction l using List.reverseRecOn with
  | nil => simp [nthVisits]
  | append_singleton l a ih =>
    rw [nthVisits_concat]
    by_cases h : l.count a = c
    · rw [if_pos h]
      refine ⟨?_, ?_⟩
      · rw [List.nodup_append]
        refine ⟨ih.1, by simp, ?_⟩
        rintro x hx y hy rfl
        simp only [List.mem_singleton] at hy
        subst hy
        have := (ih.2 x).1 hx
        omega
      · intro m
        rw [List.mem_append, ih.2, List.count_append, List.mem_singleton]
        by_cases e : m = a
        · subst e
          simp [h]
        · rw [List.count_singleton, if_neg (by simpa using fun h => e h.symm)]
          simp [e]
    · rw [if_neg h, List.append_nil]
      refine ⟨ih.1, ?_⟩
      intro m
      rw [ih.2, List.count_append]
      by_cases e : m = a
      · subst e
        simp
        omega
      · rw [List.count_singleton, if_neg (by simpa using fun h => e h.symm)]
        simp

theorem flatten_wraps {us : List (List ℕ)} (h : ∀ u ∈ us, 0 ∉ u) :
    ((us.map wrap).flatten.filter fun n => decide (n ≠ 0)) = us.flatten := by
  induction us with
  | nil => rfl
  | cons u us ih =>
    have hu := h u (List.mem_cons_self ..)
    have : (u.filter fun n => decide (n ≠ 0)) = u := by
      rw [List.filter_eq_self]
      intro n hn
      simpa using fun e : n = 0 => hu (e ▸ hn)
    rw [List.map_cons, List.flatten_cons, List.flatten_cons, List.filter_append,
      ih fun v hv => h v (List.mem_cons_of_mem _ hv)]
    congr 1
    unfold wrap
    rw [List.filter_cons, List.filter_append, this]
    simp

/-- `_remove_multiserved`. -/
theorem remove_multiserved_spec {N : ℕ} {D : ℕ → ℕ → ℚ} {us : List (List ℕ)} (hN : 1 ≤ N)
    (hnd : ∀ u ∈ us, u.Nodup) (hr : ∀ u ∈ us, ∀ n ∈ u, 1 ≤ n ∧ n < N) :
    ∃ ms vs all, remove_multiserved N D (us.map wrap) = .ok (vs.map wrap, all) ∧
      (all = true ↔ ∀ n ∈ List.range' 1 (N - 1), n ∈ us.flatten) ∧
      ms.Nodup ∧ (∀ n, n ∈ ms ↔ 2 ≤ us.flatten.count n) ∧ KeepCheapestAll D ms us vs ∧
      (∀ u ∈ vs, u.Nodup) ∧ List.Forall₂ List.Sublist vs us ∧ vs.flatten.Nodup ∧
      ∀ n, n ∈ vs.flatten ↔ n ∈ us.flatten := by
  have h0 : ∀ u ∈ us, 0 ∉ u := fun u hu h => by
    have := hr u hu 0 h
    omega
  have hms : msMulti (us.map wrap) = nthVisits 1 us.flatten := by
    unfold msMulti nthVisits
    rw [flatten_wraps h0]
  have hse : msServed (us.map wrap) = 1 + (nthVisits 0 us.flatten).length := by
    unfold msServed nthVisits
    rw [flatten_wraps h0, List.length_map]
  obtain ⟨s1, s2⟩ := nthVisits_spec 1 us.flatten
  obtain ⟨f1, f2⟩ := nthVisits_spec 0 us.flatten
  have hnz : ∀ n ∈ nthVisits 1 us.flatten, n ≠ 0 ∧ n ∈ us.flatten := by
    intro n hn
    have hmem : n ∈ us.flatten := List.count_pos_iff.1 (by have := (s2 n).1 hn; omega)
    obtain ⟨u, hu, hnu⟩ := List.mem_flatten.1 hmem
    have := hr u hu n hnu
    exact ⟨by omega, hmem⟩
  obtain ⟨vs, e1, e2, e3, e4, e5⟩ := msLoop_spec (D := D) (nthVisits 1 us.flatten) us s1 hnd fun n hn => (hnz n hn).2
  have hvis : (msMulti (us.map wrap)).map (msVisits (us.map wrap)) = (nthVisits 1 us.flatten).map (visits 0 us) := by
    rw [hms]
    apply List.map_congr_left
    intro n hn
    exact msVisits_eq (hnz n hn).1 hnd
  have hflag : decide (msServed (us.map wrap) = N) = true ↔ ∀ n ∈ List.range' 1 (N - 1), n ∈ us.flatten := by
    rw [hse, decide_eq_true_eq]
    have hsub : ∀ n ∈ nthVisits 0 us.flatten, n ∈ List.range' 1 (N - 1) := by
      intro n hn
      obtain ⟨u, hu, hnu⟩ := List.mem_flatten.1 (List.count_pos_iff.1 ((f2 n).1 hn))
      have := hr u hu n hnu
      rw [List.mem_range'_1]
      omega
    have hsp := List.subperm_of_subset f1 hsub
    constructor
    · intro h n hn
      have := hsp.perm_of_length_le (by rw [List.length_range']; omega)
      have := (this.mem_iff (a := n)).2 hn
      exact List.count_pos_iff.1 ((f2 n).1 this)
    · intro h
      have : (List.range' 1 (N - 1)).Subperm (nthVisits 0 us.flatten) :=
        List.subperm_of_subset List.nodup_range' fun n hn => (f2 n).2 (List.count_pos_iff.2 (h n hn))
      have h1 := this.length_le
      have h2 := hsp.length_le
      rw [List.length_range'] at h1 h2
      omega
  refine ⟨nthVisits 1 us.flatten, vs, _, ?_, hflag, s1, fun n => s2 n, e2, e3, e4, ?_, ?_⟩
  · unfold remove_multiserved
    simp only
    rw [hvis, List.length_map, e1]
  · rw [List.nodup_iff_count_le_one]
    intro m
    rw [e5 m]
    by_cases h : m ∈ nthVisits 1 us.flatten
    · rw [if_pos h]
    · rw [if_neg h]
      have := mt (s2 m).2 h
      omega
  · intro n
    rw [← List.count_pos_iff, e5 n, ← List.count_pos_iff (l := us.flatten)]
    by_cases h : n ∈ nthVisits 1 us.flatten
    · rw [if_pos h]
      have := (s2 n).1 h
      omega
    · rw [if_neg h]

end Verif
