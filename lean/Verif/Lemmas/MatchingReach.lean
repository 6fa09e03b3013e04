import Verif.Lemmas.MatchingGreedy
import Mathlib.Data.Set.Finite.List
import Mathlib.Data.Set.Finite.Lemmas

/-! # Lemmas on the states of the savings heuristic with matchings -/

namespace Verif
open Spec

theorem joint_of_canJoin {d : ℕ → ℚ} (hd : d 0 = 0) {C L : Option ℚ} {tsp : Router} {a b : List ℕ}
    (hab : (a ++ b).Nodup) (h : CanJoin d C L tsp a b) : Joint d C L tsp a b (nsUnion a b) := by
  have hp := nsUnion_perm (disjoint_of_nodup hab)
  refine ⟨hp, nsUnion_sorted hab, ?_, (exceeds_iff _ _ _).1 h.2⟩
  have := h.1
  rw [nsDemand_eq hd, nsDemand_eq hd, ← demand_append, ← demand_perm d hp] at this
  exact (exceeds_iff _ _ _).1 this

theorem canJoin_of_joint {d : ℕ → ℚ} (hd : d 0 = 0) {C L : Option ℚ} {tsp : Router} {a b c : List ℕ}
    (hab : (a ++ b).Nodup) (h : Joint d C L tsp a b c) : CanJoin d C L tsp a b ∧ c = nsUnion a b := by
  have hp := nsUnion_perm (disjoint_of_nodup hab)
  have hc := sorted_eq h.2.1 (nsUnion_sorted hab) (h.1.trans hp.symm)
  refine ⟨⟨?_, ?_⟩, hc⟩
  · rw [nsDemand_eq hd, nsDemand_eq hd, ← demand_append, ← demand_perm d h.1]
    exact (exceeds_iff _ _ _).2 h.2.2.1
  · rw [← hc]; exact (exceeds_iff _ _ _).2 h.2.2.2

theorem places_of_perm {α : Type} {l : List α} {a b : α} {rest : List α} (h : l.Perm (a :: b :: rest)) :
    ∃ i j : ℕ, i ≠ j ∧ l[i]? = some a ∧ l[j]? = some b := by
  obtain ⟨l1, l2, rfl⟩ := List.append_of_mem (h.mem_iff.2 (List.mem_cons_self ..))
  have h2 : (l1 ++ l2).Perm (b :: rest) := (List.perm_middle.symm.trans h).cons_inv
  rcases List.mem_append.1 (h2.mem_iff.2 (List.mem_cons_self ..)) with hb | hb
  · obtain ⟨k, hk, hkb⟩ := List.mem_iff_getElem.1 hb
    refine ⟨l1.length, k, by omega, by simp, ?_⟩
    rw [List.getElem?_append_left hk, List.getElem?_eq_getElem hk, hkb]
  · obtain ⟨k, hk, hkb⟩ := List.mem_iff_getElem.1 hb
    refine ⟨l1.length, l1.length + 1 + k, by omega, by simp, ?_⟩
    rw [List.getElem?_append_right (by omega), show l1.length + 1 + k - l1.length = k + 1 by omega,
      List.getElem?_cons_succ, List.getElem?_eq_getElem hk, hkb]

theorem gain_of_best {d : ℕ → ℚ} (hd : d 0 = 0) {C L : Option ℚ} {W w : ℚ} {tsp : Router} {sets : List (List ℕ)}
    (hn : sets.flatten.Nodup) (h : IsBest d C L W tsp sets w) : GainAtMost d C L tsp sets w := by
  intro a b c rest hp hj
  obtain ⟨i, j, hij, hi, hjj⟩ := places_of_perm hp
  have hab := two_nodup hi hjj hij hn
  obtain ⟨h1, rfl⟩ := canJoin_of_joint hd hab hj
  have := h i j a b hi hjj hij
  rw [sav_of_canJoin h1] at this
  exact this

theorem MbReach.inv {N : ℕ} {D : ℕ → ℕ → ℚ} {d : ℕ → ℚ} {C L : Option ℚ} {W : ℚ} {tsp : Router}
    {mmp : List (ℚ × ℕ × ℕ) → Option (List Bool)} (hm : SolvesRows mmp) (hd : d 0 = 0) {minimizeK second : Bool}
    {s : MbState} (h : MbReach d C L N minimizeK second W tsp mmp s) : MbInv N D d C L W tsp s ∧ MbFull s := by
  induction h with
  | start =>
    have h := mbStart_spec (N := N) (D := D) (d := d) (C := C) (L := L) (W := W) (tsp := tsp)
    exact ⟨h.1, h.2.1⟩
  | step hr hst ih =>
    rcases mbStep_spec hm hd minimizeK second ih.1 ih.2 with ⟨_, h2⟩ | ⟨_, _, h3⟩ | ⟨_, _, _, h4, _⟩ |
      ⟨s', i, j, a, b, h1, _, _, _, _, _, h7, h8, _⟩
    · rw [h2] at hst; cases hst
    · rw [h3] at hst; cases hst
    · rw [h4] at hst
      injection hst with hst; injection hst with hst
      rw [← hst]; exact ih
    · rw [h1] at hst
      injection hst with hst; injection hst with hst
      rw [← hst]; exact ⟨h7, h8⟩

theorem cacheMore_spec {tsp : Router} (more : List (List ℕ)) {cache : TspCache} (h : CacheGood tsp cache) :
    CacheGood tsp (cacheMore tsp more cache) ∧ CacheLe cache (cacheMore tsp more cache) ∧
      ∀ x ∈ more, ((cacheMore tsp more cache).lookup x).isSome := by
  induction more with
  | nil => exact ⟨h, CacheLe.refl _, by simp⟩
  | cons y more ih =>
    obtain ⟨h1, h2, h3⟩ := ih
    have e : cacheMore tsp (y :: more) cache = (y, tsp (0 :: y)) :: cacheMore tsp more cache := rfl
    rw [e]
    refine ⟨?_, ?_, ?_⟩
    · intro t v ht
      by_cases hy : t = y
      · subst hy; rw [lookup_cons_self'] at ht; injection ht with ht; exact ht.symm
      · rw [lookup_cons_ne' _ _ hy] at ht; exact h1 t v ht
    · intro t ht
      by_cases hy : t = y
      · subst hy; simp
      · rw [lookup_cons_ne' _ _ hy]; exact h2 t ht
    · intro t ht
      by_cases hy : t = y
      · subst hy; simp
      · rw [lookup_cons_ne' _ _ hy]
        rcases List.mem_cons.1 ht with h | h
        · exact absurd h hy
        · exact h3 t h

theorem MbInv.more {N : ℕ} {D : ℕ → ℕ → ℚ} {d : ℕ → ℚ} {C L : Option ℚ} {W : ℚ} {tsp : Router} {s : MbState}
    (hs : MbInv N D d C L W tsp s) (more : List (List ℕ)) :
    MbInv N D d C L W tsp ⟨s.savings, s.sets, cacheMore tsp more s.cache⟩ := by
  obtain ⟨h1, h2, -⟩ := cacheMore_spec more hs.cache
  refine ⟨hs.perm, hs.good, fun e he => ?_, h1⟩
  obtain ⟨n, a, b, ha, hb, hv, hk⟩ := hs.val e he
  exact ⟨n, a, b, ha, hb, hv, fun hj x hx => h2 x (hk hj x hx)⟩

/-- Every route has been routed. -/
def MbAll (s : MbState) : Prop := ∀ x ∈ s.sets, (s.cache.lookup x).isSome

theorem mbJoin_all {N : ℕ} {D : ℕ → ℕ → ℚ} {d : ℕ → ℚ} {C L : Option ℚ} {W : ℚ} {tsp : Router} (hd : d 0 = 0)
    {s : MbState} (hs : MbInv N D d C L W tsp s) (ha : MbAll s) {e : ℚ × ℕ × ℕ} (he : e ∈ s.savings) (hw : e.1 ≠ W) :
    ∃ s' a b, mbJoin s e.2.1 e.2.2 = .ok (s', nsUnion a b, shift e.2.2 e.2.1) ∧ MbInv N D d C L W tsp s' ∧ MbAll s' ∧
      s'.cache = s.cache := by
  obtain ⟨hne, a, b, hi, hj, hv, hk⟩ := hs.val e he
  have hc : CanJoin d C L tsp a b := canJoin_of_sav (by rw [← hv]; exact hw)
  obtain ⟨s', h1, h2, -, -, -, -, h3, rest, h4, h5⟩ := mbJoin_spec hd hs hi hj hne hc
  refine ⟨s', a, b, h1, h2, ?_, h3⟩
  intro x hx
  rw [h3]
  rcases List.mem_cons.1 (h5.mem_iff.1 hx) with rfl | hx
  · exact hk hc _ (by simp)
  · exact ha x (h4.mem_iff.2 (by simp [hx]))

/-- The first savings route each customer that fits together with another one. -/
theorem mbStart_all {N : ℕ} {d : ℕ → ℚ} (hd : d 0 = 0) {C L : Option ℚ} {W : ℚ} {tsp : Router}
    (hpair : ∀ n, 1 ≤ n → n < N → ∃ m, 1 ≤ m ∧ m < N ∧ m ≠ n ∧ ∃ c, Joint d C L tsp [n] [m] c) :
    MbAll (mbStart d C L N W tsp) := by
  intro x hx
  change x ∈ mbSingles N at hx
  obtain ⟨n, hn, rfl⟩ := List.mem_map.1 hx
  unfold pyRange at hn
  rw [List.mem_range'_1] at hn
  obtain ⟨m, hm1, hm2, hmn, c, hc⟩ := hpair n hn.1 (by omega)
  have hnd : ([n] ++ [m]).Nodup := by simp [Ne.symm hmn]
  have hmd : ([m] ++ [n]).Nodup := by simp [hmn]
  obtain ⟨h1, -⟩ := canJoin_of_joint hd hnd hc
  have h2 : CanJoin d C L tsp [m] [n] := by
    obtain ⟨h1, h2⟩ := h1
    exact ⟨by rw [add_comm]; exact h1, by rw [nsUnion_comm hmd]; exact h2⟩
  have get : ∀ k, 1 ≤ k → k < N → (mbSingles N)[k - 1]? = some [k] := by
    intro k h1 h2
    unfold mbSingles pyRange
    rw [List.getElem?_map, List.getElem?_range' (by omega)]
    simp; omega
  obtain ⟨-, -, -, h4⟩ := mbEval_spec d C L W (mbPairs (mbSingles N)) (cacheGood_nil tsp)
  change ((mbEval d C L W tsp (mbPairs (mbSingles N)) []).2.lookup [n]).isSome
  rcases Nat.lt_or_ge n m with h | h
  · exact h4 (([n], n - 1), ([m], m - 1)) (mem_mbPairs.2 ⟨by simp only; omega, get n hn.1 (by omega), get m hm1 hm2⟩) h1 [n]
      (by simp)
  · exact h4 (([m], m - 1), ([n], n - 1)) (mem_mbPairs.2 ⟨by simp only; omega, get m hm1 hm2, get n hn.1 (by omega)⟩) h2 [n]
      (by simp)

theorem MbReach.all {N : ℕ} {D : ℕ → ℕ → ℚ} {d : ℕ → ℚ} {C L : Option ℚ} {W : ℚ} {tsp : Router}
    {mmp : List (ℚ × ℕ × ℕ) → Option (List Bool)} (hm : SolvesRows mmp) (hd : d 0 = 0) {minimizeK second : Bool}
    (h0 : MbAll (mbStart d C L N W tsp)) {s : MbState} (h : MbReach d C L N minimizeK second W tsp mmp s) :
    MbAll s := by
  induction h with
  | start => exact h0
  | @step s s' hr hst ih =>
    obtain ⟨hs, hf⟩ := hr.inv (D := D) hm hd
    unfold mbStep at hst
    by_cases q1 : s.savings = []
    · rw [if_pos q1] at hst; cases hst
    rw [if_neg q1] at hst
    by_cases q2 : (!s.savings.any fun e => decide (e.1 ≠ W ∧ e.1 ≠ 0)) = true
    · rw [if_pos q2] at hst; cases hst
    rw [if_neg q2] at hst
    obtain ⟨⟨w, i, j⟩, he, hsol, -⟩ := mmpSolve_spec hm second q1
    rw [hsol] at hst
    simp only at hst
    by_cases q3 : w = W
    · rw [if_pos q3] at hst; cases hst
    rw [if_neg q3] at hst
    by_cases q4 : (!minimizeK && decide (w < 0)) = true
    · rw [if_pos q4] at hst
      injection hst with hst; injection hst with hst
      rw [← hst]; exact ih
    · rw [if_neg q4] at hst
      obtain ⟨s1, a, b, e1, i1, a1, -⟩ := mbJoin_all hd hs ih he q3
      rw [mbMerge] at hst
      change mbJoin s i j = _ at e1
      rw [e1] at hst
      simp only at hst
      injection hst with hst; injection hst with hst
      obtain ⟨-, -, h3, -⟩ := mbEval_spec d C L W (mbRow (nsUnion a b) (shift j i) s1.sets) i1.cache
      rw [← hst]
      exact fun x hx => h3 x (a1 x hx)

/-! ## There is a solver -/

/-- The first pair for each first number. -/
def firstRows : List ℕ → List (ℚ × ℕ × ℕ) → List Bool
  | _, [] => []
  | seen, e :: es => decide (e.2.1 ∉ seen) :: firstRows (e.2.1 :: seen) es

theorem firstRows_length (seen : List ℕ) (es : List (ℚ × ℕ × ℕ)) : (firstRows seen es).length = es.length := by
  induction es generalizing seen with
  | nil => rfl
  | cons e es ih => simp [firstRows, ih]

theorem firstRows_count (es : List (ℚ × ℕ × ℕ)) (seen : List ℕ) (k : ℕ) :
    ((selected es (firstRows seen es)).filter fun f => decide (f.2.1 = k)).length =
      if k ∉ seen ∧ k ∈ es.map (·.2.1) then 1 else 0 := by
  induction es generalizing seen with
  | nil => simp [selected, firstRows]
  | cons e es ih =>
    rw [firstRows, selected_cons, List.filter_append, List.length_append, ih]
    by_cases h1 : e.2.1 ∈ seen <;> by_cases h2 : k = e.2.1
    · subst h2; simp [h1]
    · have hiff : (k ∉ e.2.1 :: seen ∧ k ∈ es.map (·.2.1)) ↔ (k ∉ seen ∧ k ∈ (e :: es).map (·.2.1)) := by simp [h2]
      rw [if_congr hiff rfl rfl]
      simp [h1]
    · subst h2; simp [h1]
    · have h2' : ¬ e.2.1 = k := fun h => h2 h.symm
      have hiff : (k ∉ e.2.1 :: seen ∧ k ∈ es.map (·.2.1)) ↔ (k ∉ seen ∧ k ∈ (e :: es).map (·.2.1)) := by simp [h2]
      rw [if_congr hiff rfl rfl]
      simp [h1, h2']

/-- The contract of the solver can be met. -/
theorem solvesRows_exists : ∃ mmp, SolvesRows mmp := by
  have : ∀ es : List (ℚ × ℕ × ℕ), ∃ X, RowChoice es X ∧ ∀ Y, RowChoice es Y → weight es Y ≤ weight es X := by
    intro es
    have hfin : {X : List Bool | RowChoice es X}.Finite :=
      (List.finite_length_eq Bool es.length).subset fun X hX => hX.1
    have hne : {X : List Bool | RowChoice es X}.Nonempty := by
      refine ⟨firstRows [] es, firstRows_length _ _, fun e he => ?_⟩
      rw [firstRows_count, if_pos]
      exact ⟨by simp, List.mem_map.2 ⟨e, he, rfl⟩⟩
    obtain ⟨X, hX, hmax⟩ := Set.exists_max_image _ (weight es) hfin hne
    exact ⟨X, hX, fun Y hY => hmax Y hY⟩
  choose f hf using this
  exact ⟨fun es => some (f es), fun es _ => ⟨f es, rfl, hf es⟩⟩

end Verif
