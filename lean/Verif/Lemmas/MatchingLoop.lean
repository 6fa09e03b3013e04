import Verif.Lemmas.Matching

/-! # Lemmas on the main loop of the savings heuristic with matchings -/

namespace Verif
open Spec

/-- A set of customers that makes up a route. -/
def MbGood (N : ℕ) (D : ℕ → ℕ → ℚ) (d : ℕ → ℚ) (C L : Option ℚ) (tsp : Router) (x : List ℕ) : Prop :=
  x ≠ [] ∧ x.Pairwise (· < ·) ∧ (Serviceable N D d C L → ∀ u : List ℕ, u.Perm x →
    tsp (0 :: x) = (wrap u, cost D (wrap u)) → RouteOk D d C L u)

/-- The invariant of the main loop. -/
structure MbInv (N : ℕ) (D : ℕ → ℕ → ℚ) (d : ℕ → ℚ) (C L : Option ℚ) (W : ℚ) (tsp : Router) (s : MbState) : Prop where
  perm : s.sets.flatten.Perm (List.range' 1 (N - 1))
  good : ∀ x ∈ s.sets, MbGood N D d C L tsp x
  val : ∀ e ∈ s.savings, e.2.1 ≠ e.2.2 ∧ ∃ a b, s.sets[e.2.1]? = some a ∧ s.sets[e.2.2]? = some b ∧
    e.1 = sav d C L W tsp a b ∧
      (CanJoin d C L tsp a b → ∀ x ∈ [a, b, nsUnion a b], (s.cache.lookup x).isSome)
  cache : CacheGood tsp s.cache

/-- Every pair of routes has an entry. -/
def MbFull (s : MbState) : Prop :=
  ∀ i j, i < j → j < s.sets.length → ∃ e ∈ s.savings, e.2 = (i, j) ∨ e.2 = (j, i)

theorem perm_eraseIdx {α : Type} {l : List α} {j : ℕ} {b : α} (h : l[j]? = some b) : l.Perm (b :: l.eraseIdx j) := by
  obtain ⟨h1, h2⟩ := List.getElem?_eq_some_iff.1 h
  rw [← h2]
  exact (List.getElem_cons_eraseIdx_perm h1).symm

theorem perm_set {α : Type} {l : List α} {i : ℕ} {a : α} (h : l[i]? = some a) (y : α) :
    (a :: l.set i y).Perm (y :: l) := by
  induction l generalizing i with
  | nil => simp at h
  | cons b l ih =>
    cases i with
    | zero =>
      simp only [List.getElem?_cons_zero, Option.some.injEq] at h
      subst h
      exact List.Perm.swap _ _ _
    | succ i =>
      simp only [List.getElem?_cons_succ] at h
      rw [List.set_cons_succ]
      exact (List.Perm.swap _ _ _).trans (((ih h).cons b).trans (List.Perm.swap _ _ _))

/-- Two places of a list of disjoint sets. -/
theorem two_places {α : Type} {ss : List α} {i j : ℕ} {a b : α} (hi : ss[i]? = some a) (hj : ss[j]? = some b)
    (hij : i ≠ j) : ∃ rest, ss.Perm (b :: a :: rest) := by
  have h1 := perm_eraseIdx hj
  have h2 : (ss.eraseIdx j)[if i < j then i else i - 1]? = some a := by
    rw [List.getElem?_eraseIdx]
    by_cases h : i < j
    · simp [h, hi]
    · rw [if_neg h, if_neg (by omega)]
      rw [show i - 1 + 1 = i by omega]; exact hi
  exact ⟨_, h1.trans ((perm_eraseIdx h2).cons b)⟩

theorem two_nodup {ss : List (List ℕ)} {i j : ℕ} {a b : List ℕ} (hi : ss[i]? = some a) (hj : ss[j]? = some b)
    (hij : i ≠ j) (hn : ss.flatten.Nodup) : (a ++ b).Nodup := by
  obtain ⟨rest, hr⟩ := two_places hi hj hij
  have := (hr.flatten.nodup_iff).1 hn
  simp only [List.flatten_cons, ← List.append_assoc] at this
  exact List.perm_append_comm.nodup_iff.1 (List.Nodup.of_append_left this)

theorem MbInv.nodup {N : ℕ} {D : ℕ → ℕ → ℚ} {d : ℕ → ℚ} {C L : Option ℚ} {W : ℚ} {tsp : Router} {s : MbState}
    (h : MbInv N D d C L W tsp s) : s.sets.flatten.Nodup := h.perm.nodup_iff.2 (List.nodup_range' ..)

theorem nsDemand_eq {d : ℕ → ℚ} (hd : d 0 = 0) (s : List ℕ) : nsDemand d s = demand d s := by
  rw [nsDemand, List.map_cons, List.sum_cons, hd, zero_add]
  induction s with
  | nil => rfl
  | cons a t ih => rw [List.map_cons, List.sum_cons, ih, demand_cons]

/-- The new number of a route that is not the one removed. -/
def shift (j k : ℕ) : ℕ := if k < j then k else k - 1

theorem shift_inj {j k l : ℕ} (hk : k ≠ j) (hl : l ≠ j) (h : shift j k = shift j l) : k = l := by
  unfold shift at h; split_ifs at h <;> omega

/-- What a merge does to the routes. -/
theorem mbJoin_spec {N : ℕ} {D : ℕ → ℕ → ℚ} {d : ℕ → ℚ} {C L : Option ℚ} {W : ℚ} {tsp : Router} (hd : d 0 = 0)
    {s : MbState} (hs : MbInv N D d C L W tsp s) {i j : ℕ} {a b : List ℕ}
    (hi : s.sets[i]? = some a) (hj : s.sets[j]? = some b) (hij : i ≠ j) (hc : CanJoin d C L tsp a b) :
    ∃ s', mbJoin s i j = .ok (s', nsUnion a b, shift j i) ∧ MbInv N D d C L W tsp s' ∧
      s'.sets[shift j i]? = some (nsUnion a b) ∧
      (∀ k, k ≠ i → k ≠ j → s'.sets[shift j k]? = s.sets[k]?) ∧ s'.sets.length + 1 = s.sets.length ∧
      (∀ e ∈ s.savings, e.2.1 ≠ i → e.2.2 ≠ i → e.2.1 ≠ j → e.2.2 ≠ j →
        (e.1, shift j e.2.1, shift j e.2.2) ∈ s'.savings) ∧ s'.cache = s.cache ∧
      (∃ rest, s.sets.Perm (a :: b :: rest) ∧ s'.sets.Perm (nsUnion a b :: rest)) := by
  have hab := two_nodup hi hj hij hs.nodup
  have hil := (List.getElem?_eq_some_iff.1 hi).1
  have hjl := (List.getElem?_eq_some_iff.1 hj).1
  have hsh : (if i > j then i - 1 else i) = shift j i := by unfold shift; split_ifs <;> omega
  have hE : ∀ k, k ≠ j → (s.sets.eraseIdx j)[shift j k]? = s.sets[k]? := by
    intro k hk
    rw [List.getElem?_eraseIdx]
    unfold shift
    by_cases h : k < j
    · simp [h]
    · rw [if_neg h, if_neg (by omega), show k - 1 + 1 = k by omega]
  have hEl : (s.sets.eraseIdx j).length = s.sets.length - 1 := by rw [List.length_eraseIdx, if_pos hjl]
  have hsl : shift j i < (s.sets.eraseIdx j).length := by rw [hEl]; unfold shift; split_ifs <;> omega
  generalize hsv : ((s.savings.filter fun e => decide (e.2.1 ≠ i ∧ e.2.2 ≠ i ∧ e.2.1 ≠ j ∧ e.2.2 ≠ j)).map fun e =>
      (e.1, if e.2.1 < j then e.2.1 else e.2.1 - 1, if e.2.2 < j then e.2.2 else e.2.2 - 1)) = sv
  refine ⟨⟨sv, (s.sets.eraseIdx j).set (shift j i) (nsUnion a b), s.cache⟩, ?_, ?_, ?_, ?_, ?_, ?_, rfl, ?_⟩
  · unfold mbJoin
    simp only [idx, hi, hj, hsh, setIdx, if_pos hsl, ← hsv]
  · have p1 := perm_eraseIdx hj
    have p2 := perm_set ((hE i hij).trans hi) (nsUnion a b)
    refine ⟨?_, ?_, ?_, hs.cache⟩
    · have q2 := p2.flatten
      simp only [List.flatten_cons] at q2
      have q1 := p1.flatten
      simp only [List.flatten_cons] at q1
      have q3 : (a ++ (((s.sets.eraseIdx j).set (shift j i) (nsUnion a b))).flatten).Perm
          (a ++ (b ++ (s.sets.eraseIdx j).flatten)) := by
        rw [← List.append_assoc]
        exact q2.trans ((nsUnion_perm (disjoint_of_nodup hab)).append_right _)
      exact ((List.perm_append_left_iff a).1 q3).trans (q1.symm.trans hs.perm)
    · intro x hx
      rcases List.mem_or_eq_of_mem_set hx with hx | rfl
      · exact hs.good x (List.mem_of_mem_eraseIdx hx)
      · have ha := hs.good a (List.mem_of_getElem? hi)
        have hp := nsUnion_perm (disjoint_of_nodup hab)
        refine ⟨?_, nsUnion_sorted hab, ?_⟩
        · intro e
          rw [e] at hp
          exact ha.1 (List.append_eq_nil_iff.1 hp.symm.eq_nil).1
        · intro _ u hu hut
          obtain ⟨hc1, hc2⟩ := hc
          rw [hut] at hc2
          refine ⟨?_, ?_⟩
          · have := exceeds_iff C C_EPS (nsDemand d a + nsDemand d b)
            rw [nsDemand_eq hd, nsDemand_eq hd, ← demand_append, ← demand_perm d (hu.trans hp)] at this
            rw [nsDemand_eq hd, nsDemand_eq hd, ← demand_append, ← demand_perm d (hu.trans hp)] at hc1
            exact this.1 hc1
          · exact (exceeds_iff L S_EPS _).1 hc2
    · intro e he
      rw [← hsv] at he
      obtain ⟨f, hf, rfl⟩ := List.mem_map.1 he
      obtain ⟨hf, hf2⟩ := List.mem_filter.1 hf
      simp only [ne_eq, decide_eq_true_eq] at hf2
      obtain ⟨n1, n2, n3, n4⟩ := hf2
      obtain ⟨hne, x, y, hx, hy, hv⟩ := hs.val f hf
      change shift j f.2.1 ≠ shift j f.2.2 ∧ _
      refine ⟨fun h => hne (shift_inj n3 n4 h), x, y, ?_, ?_, hv⟩
      · change ((s.sets.eraseIdx j).set (shift j i) (nsUnion a b))[shift j f.2.1]? = _
        rw [List.getElem?_set_ne (fun h => n1 (shift_inj hij n3 h).symm), hE _ n3, hx]
      · change ((s.sets.eraseIdx j).set (shift j i) (nsUnion a b))[shift j f.2.2]? = _
        rw [List.getElem?_set_ne (fun h => n2 (shift_inj hij n4 h).symm), hE _ n4, hy]
  · exact List.getElem?_set_self hsl
  · intro k hk1 hk2
    change ((s.sets.eraseIdx j).set (shift j i) (nsUnion a b))[shift j k]? = _
    rw [List.getElem?_set_ne (fun h => hk1 (shift_inj hij hk2 h).symm), hE _ hk2]
  · change ((s.sets.eraseIdx j).set (shift j i) (nsUnion a b)).length + 1 = _
    rw [List.length_set, hEl]; omega
  · intro e he n1 n2 n3 n4
    change _ ∈ sv
    rw [← hsv]
    exact List.mem_map.2 ⟨e, List.mem_filter.2 ⟨he, by simp [n1, n2, n3, n4]⟩, rfl⟩
  · have h2 := (hE i hij).trans hi
    refine ⟨(s.sets.eraseIdx j).eraseIdx (shift j i), ?_, ?_⟩
    · exact (perm_eraseIdx hj).trans (((perm_eraseIdx h2).cons b).trans (List.Perm.swap _ _ _))
    · have q := perm_set h2 (nsUnion a b)
      have q2 := (perm_eraseIdx h2).cons (nsUnion a b)
      exact (q.trans (q2.trans (List.Perm.swap _ _ _))).cons_inv

theorem mem_mbRow {a : List ℕ} {i : ℕ} {sets : List (List ℕ)} {p : (List ℕ × ℕ) × (List ℕ × ℕ)} :
    p ∈ mbRow a i sets ↔ p.1 = (a, i) ∧ p.2.2 ≠ i ∧ sets[p.2.2]? = some p.2.1 := by
  unfold mbRow
  simp only [List.mem_map, List.mem_filter, decide_eq_true_eq]
  constructor
  · rintro ⟨b, ⟨hb, hn⟩, rfl⟩
    obtain ⟨x, k⟩ := b
    exact ⟨rfl, hn, by simpa using List.mem_zipIdx_iff_getElem?.1 hb⟩
  · rintro ⟨h1, h2, h3⟩
    obtain ⟨p1, ⟨x, k⟩⟩ := p
    exact ⟨(x, k), ⟨List.mem_zipIdx_iff_getElem?.2 (by simpa using h3), h2⟩, by rw [← h1]⟩

theorem mem_mbPairs {sets : List (List ℕ)} {p : (List ℕ × ℕ) × (List ℕ × ℕ)} :
    p ∈ mbPairs sets ↔ p.1.2 < p.2.2 ∧ sets[p.1.2]? = some p.1.1 ∧ sets[p.2.2]? = some p.2.1 := by
  unfold mbPairs
  simp only [List.mem_flatMap, List.mem_map, List.mem_filter, decide_eq_true_eq]
  constructor
  · rintro ⟨a, ha, b, ⟨hb, hn⟩, rfl⟩
    exact ⟨hn, by simpa using List.mem_zipIdx_iff_getElem?.1 ha, by simpa using List.mem_zipIdx_iff_getElem?.1 hb⟩
  · rintro ⟨h1, h2, h3⟩
    obtain ⟨⟨a, i⟩, ⟨b, j⟩⟩ := p
    exact ⟨(a, i), List.mem_zipIdx_iff_getElem?.2 (by simpa using h2), (b, j),
      ⟨List.mem_zipIdx_iff_getElem?.2 (by simpa using h3), h1⟩, rfl⟩

/-- Evaluated pairs may be added. -/
theorem MbInv.eval {N : ℕ} {D : ℕ → ℕ → ℚ} {d : ℕ → ℚ} {C L : Option ℚ} {W : ℚ} {tsp : Router} {s : MbState}
    (hs : MbInv N D d C L W tsp s) (ps : List ((List ℕ × ℕ) × (List ℕ × ℕ)))
    (hps : ∀ p ∈ ps, p.1.2 ≠ p.2.2 ∧ s.sets[p.1.2]? = some p.1.1 ∧ s.sets[p.2.2]? = some p.2.1) :
    MbInv N D d C L W tsp ⟨s.savings ++ (mbEval d C L W tsp ps s.cache).1, s.sets, (mbEval d C L W tsp ps s.cache).2⟩ := by
  obtain ⟨h1, h2, h3, h4⟩ := mbEval_spec d C L W ps hs.cache
  refine ⟨hs.perm, hs.good, ?_, h2⟩
  intro e he
  rcases List.mem_append.1 he with he | he
  · obtain ⟨n, a, b, ha, hb, hv, hk⟩ := hs.val e he
    exact ⟨n, a, b, ha, hb, hv, fun hj x hx => h3 x (hk hj x hx)⟩
  · rw [h1] at he
    obtain ⟨p, hp, rfl⟩ := List.mem_map.1 he
    obtain ⟨n, ha, hb⟩ := hps p hp
    exact ⟨n, _, _, ha, hb, rfl, fun hj x hx => h4 p hp hj x hx⟩

/-- What a merge does. -/
theorem mbMerge_spec {N : ℕ} {D : ℕ → ℕ → ℚ} {d : ℕ → ℚ} {C L : Option ℚ} {W : ℚ} {tsp : Router} (hd : d 0 = 0)
    {s : MbState} (hs : MbInv N D d C L W tsp s) (hf : MbFull s) {i j : ℕ} {a b : List ℕ}
    (hi : s.sets[i]? = some a) (hj : s.sets[j]? = some b) (hij : i ≠ j) (hc : CanJoin d C L tsp a b) :
    ∃ s', mbMerge d C L W tsp s i j = .ok s' ∧ MbInv N D d C L W tsp s' ∧ MbFull s' ∧
      s'.sets.length + 1 = s.sets.length ∧
      (∃ rest, s.sets.Perm (a :: b :: rest) ∧ s'.sets.Perm (nsUnion a b :: rest)) := by
  obtain ⟨s1, e1, hs1, hu, hk, hl, hsv, hca, hp⟩ := mbJoin_spec hd hs hi hj hij hc
  unfold mbMerge
  rw [e1]
  simp only
  refine ⟨_, rfl, hs1.eval _ ?_, ?_, hl, hp⟩
  · intro p hp
    obtain ⟨q1, q2, q3⟩ := mem_mbRow.1 hp
    rw [q1]
    exact ⟨fun h => q2 h.symm, hu, q3⟩
  · intro k l hkl hll
    change l < s1.sets.length at hll
    obtain ⟨h1, -, -, -⟩ := mbEval_spec d C L W (mbRow (nsUnion a b) (shift j i) s1.sets) hs1.cache
    have row : ∀ m, m < s1.sets.length → m ≠ shift j i → ∃ e ∈ s1.savings ++
        (mbEval d C L W tsp (mbRow (nsUnion a b) (shift j i) s1.sets) s1.cache).1, e.2 = (shift j i, m) := by
      intro m hm hne
      refine ⟨(sav d C L W tsp (nsUnion a b) s1.sets[m], shift j i, m), List.mem_append_right _ ?_, rfl⟩
      rw [h1]
      exact List.mem_map.2 ⟨((nsUnion a b, shift j i), (s1.sets[m], m)),
        mem_mbRow.2 ⟨rfl, hne, List.getElem?_eq_getElem hm⟩, rfl⟩
    by_cases hk1 : k = shift j i
    · obtain ⟨e, he, h⟩ := row l hll (by omega)
      exact ⟨e, he, Or.inl (by rw [h, hk1])⟩
    by_cases hl1 : l = shift j i
    · obtain ⟨e, he, h⟩ := row k (by omega) hk1
      exact ⟨e, he, Or.inr (by rw [h, hl1])⟩
    obtain ⟨k0, hk0, hk0j⟩ : ∃ k0, shift j k0 = k ∧ k0 ≠ j := by
      by_cases h : k < j
      · exact ⟨k, by simp [shift, h], by omega⟩
      · exact ⟨k + 1, by unfold shift; rw [if_neg (by omega)]; omega, by omega⟩
    obtain ⟨l0, hl0, hl0j⟩ : ∃ l0, shift j l0 = l ∧ l0 ≠ j := by
      by_cases h : l < j
      · exact ⟨l, by simp [shift, h], by omega⟩
      · exact ⟨l + 1, by unfold shift; rw [if_neg (by omega)]; omega, by omega⟩
    have hlt : k0 < l0 := by unfold shift at hk0 hl0; split_ifs at hk0 hl0 <;> omega
    have hl0l : l0 < s.sets.length := by unfold shift at hl0; split_ifs at hl0 <;> omega
    have hk0i : k0 ≠ i := fun h => hk1 (by rw [← hk0, h])
    have hl0i : l0 ≠ i := fun h => hl1 (by rw [← hl0, h])
    obtain ⟨e, he, h⟩ := hf k0 l0 hlt hl0l
    rcases h with h | h
    · refine ⟨_, List.mem_append_left _ (hsv e he ?_ ?_ ?_ ?_), Or.inl ?_⟩ <;> simp [*]
    · refine ⟨_, List.mem_append_left _ (hsv e he ?_ ?_ ?_ ?_), Or.inr ?_⟩ <;> simp [*]


/-- The best entry can be joined unless it is `W`. -/
theorem canJoin_of_sav {d : ℕ → ℚ} {C L : Option ℚ} {W : ℚ} {tsp : Router} {a b : List ℕ}
    (h : sav d C L W tsp a b ≠ W) : CanJoin d C L tsp a b := by
  unfold sav at h
  unfold CanJoin
  split_ifs at h with h1 h2
  · exact absurd rfl h
  · exact absurd rfl h
  · exact ⟨by simpa using h1, by simpa using h2⟩

theorem sav_of_canJoin {d : ℕ → ℚ} {C L : Option ℚ} {W : ℚ} {tsp : Router} {a b : List ℕ}
    (h : CanJoin d C L tsp a b) :
    sav d C L W tsp a b = (tsp (0 :: a)).2 + (tsp (0 :: b)).2 - (tsp (0 :: nsUnion a b)).2 := by
  unfold sav
  rw [h.1, h.2]
  simp

/-- A pair of routes has an entry, with its value. -/
theorem entry_of_pair {N : ℕ} {D : ℕ → ℕ → ℚ} {d : ℕ → ℚ} {C L : Option ℚ} {W : ℚ} {tsp : Router}
    {s : MbState} (hs : MbInv N D d C L W tsp s) (hf : MbFull s) {i j : ℕ} {a b : List ℕ}
    (hi : s.sets[i]? = some a) (hj : s.sets[j]? = some b) (hij : i ≠ j) :
    ∃ e ∈ s.savings, e.1 = sav d C L W tsp a b := by
  have hil := (List.getElem?_eq_some_iff.1 hi).1
  have hjl := (List.getElem?_eq_some_iff.1 hj).1
  have key : ∃ e ∈ s.savings, e.2 = (i, j) ∨ e.2 = (j, i) := by
    rcases Nat.lt_or_ge i j with h | h
    · exact hf i j h hjl
    · obtain ⟨e, he, h'⟩ := hf j i (by omega) hil
      exact ⟨e, he, h'.symm⟩
  obtain ⟨e, he, h⟩ := key
  refine ⟨e, he, ?_⟩
  obtain ⟨_, x, y, hx, hy, hv, _⟩ := hs.val e he
  rcases h with h | h
  · rw [h] at hx hy
    rw [hi] at hx; rw [hj] at hy
    injection hx with hx; injection hy with hy
    rw [hv, hx, hy]
  · rw [h] at hx hy
    rw [hj] at hx; rw [hi] at hy
    injection hx with hx; injection hy with hy
    rw [hv, ← hx, ← hy]
    exact sav_comm _ _ _ _ _ (two_nodup hj hi (Ne.symm hij) hs.nodup)

/-- There are no entries exactly if there is at most one route. -/
theorem savings_nil_iff {N : ℕ} {D : ℕ → ℕ → ℚ} {d : ℕ → ℚ} {C L : Option ℚ} {W : ℚ} {tsp : Router}
    {s : MbState} (hs : MbInv N D d C L W tsp s) (hf : MbFull s) : s.savings = [] ↔ s.sets.length ≤ 1 := by
  constructor
  · intro h
    by_contra hh
    obtain ⟨e, he, _⟩ := hf 0 1 (by omega) (by omega)
    rw [h] at he
    cases he
  · intro h
    by_contra hh
    obtain ⟨e, he⟩ := List.exists_mem_of_ne_nil _ hh
    obtain ⟨hne, a, b, ha, hb, _⟩ := hs.val e he
    have := (List.getElem?_eq_some_iff.1 ha).1
    have := (List.getElem?_eq_some_iff.1 hb).1
    omega

/-- The largest value of joining two routes. -/
def IsBest (d : ℕ → ℚ) (C L : Option ℚ) (W : ℚ) (tsp : Router) (sets : List (List ℕ)) (w : ℚ) : Prop :=
  ∀ (i j : ℕ) (a b : List ℕ), sets[i]? = some a → sets[j]? = some b → i ≠ j → sav d C L W tsp a b ≤ w

/-- What a turn of the loop does. -/
theorem mbStep_spec {N : ℕ} {D : ℕ → ℕ → ℚ} {d : ℕ → ℚ} {C L : Option ℚ} {W : ℚ} {tsp : Router}
    {mmp : List (ℚ × ℕ × ℕ) → Option (List Bool)} (hm : SolvesRows mmp) (hd : d 0 = 0) (minimizeK second : Bool)
    {s : MbState} (hs : MbInv N D d C L W tsp s) (hf : MbFull s) :
    (s.sets.length ≤ 1 ∧ mbStep d C L minimizeK second W tsp mmp s = .error .valueError) ∨
    (1 < s.sets.length ∧ IsBest d C L W tsp s.sets (max W 0) ∧ mbStep d C L minimizeK second W tsp mmp s = .ok none) ∨
    (1 < s.sets.length ∧ minimizeK = false ∧ (∃ w < 0, IsBest d C L W tsp s.sets w) ∧
      mbStep d C L minimizeK second W tsp mmp s = .ok (some s) ∧ ∃ (i j : ℕ) (a b : List ℕ), s.sets[i]? = some a ∧ s.sets[j]? = some b ∧
        i ≠ j ∧ CanJoin d C L tsp a b ∧ sav d C L W tsp a b < 0) ∨
    (∃ (s' : MbState) (i j : ℕ) (a b : List ℕ), mbStep d C L minimizeK second W tsp mmp s = .ok (some s') ∧ s.sets[i]? = some a ∧
      s.sets[j]? = some b ∧ i ≠ j ∧ CanJoin d C L tsp a b ∧ IsBest d C L W tsp s.sets (sav d C L W tsp a b) ∧
      MbInv N D d C L W tsp s' ∧ MbFull s' ∧ s'.sets.length + 1 = s.sets.length ∧
      (∃ rest, s.sets.Perm (a :: b :: rest) ∧ s'.sets.Perm (nsUnion a b :: rest)) ∧
      (minimizeK = true ∨ 0 ≤ sav d C L W tsp a b)) := by
  have hnil := savings_nil_iff hs hf
  have best : ∀ w, (∀ e ∈ s.savings, e.1 ≤ w) → IsBest d C L W tsp s.sets w := by
    intro w hw i j a b hi hj hij
    obtain ⟨e, he, hv⟩ := entry_of_pair hs hf hi hj hij
    rw [← hv]
    exact hw e he
  unfold mbStep
  by_cases h0 : s.savings = []
  · rw [if_pos h0]
    exact Or.inl ⟨hnil.1 h0, rfl⟩
  rw [if_neg h0]
  have h1 : 1 < s.sets.length := by
    by_contra h; exact h0 (hnil.2 (by omega))
  by_cases h2 : (!s.savings.any fun e => decide (e.1 ≠ W ∧ e.1 ≠ 0)) = true
  · rw [if_pos h2]
    refine Or.inr (Or.inl ⟨h1, best _ ?_, rfl⟩)
    intro e he
    simp only [Bool.not_eq_true', List.any_eq_false, decide_eq_true_eq] at h2
    have := h2 e he
    by_cases hW : e.1 = W
    · rw [hW]; exact le_max_left _ _
    · have : e.1 = 0 := by by_contra h; exact this ⟨hW, h⟩
      rw [this]; exact le_max_right _ _
  rw [if_neg h2]
  obtain ⟨⟨w, i, j⟩, he, hsol, hmax⟩ := mmpSolve_spec hm second h0
  rw [hsol]
  simp only
  obtain ⟨hij, a, b, hi, hj, hv, _⟩ := hs.val _ he
  change i ≠ j at hij
  change s.sets[i]? = some a at hi
  change s.sets[j]? = some b at hj
  change w = _ at hv
  by_cases h3 : w = W
  · rw [if_pos h3]
    refine Or.inr (Or.inl ⟨h1, best _ fun f hf => (hmax f hf).trans ?_, rfl⟩)
    rw [← h3]; exact le_max_left _ _
  rw [if_neg h3]
  have hc : CanJoin d C L tsp a b := canJoin_of_sav (by rw [← hv]; exact h3)
  by_cases h4 : (!minimizeK && decide (w < 0)) = true
  · rw [if_pos h4]
    simp only [Bool.and_eq_true, Bool.not_eq_true', decide_eq_true_eq] at h4
    exact Or.inr (Or.inr (Or.inl ⟨h1, h4.1, ⟨w, h4.2, best w hmax⟩, rfl, i, j, a, b, hi, hj, hij, hc, by rw [← hv]; exact h4.2⟩))
  rw [if_neg h4]
  obtain ⟨s', e1, g1, g2, g3, g4⟩ := mbMerge_spec hd hs hf hi hj hij hc
  rw [e1]
  refine Or.inr (Or.inr (Or.inr ⟨s', i, j, a, b, rfl, hi, hj, hij, hc, by rw [← hv]; exact best w hmax, g1, g2, g3, g4, ?_⟩))
  cases minimizeK
  · right
    rw [← hv]
    by_contra h
    exact h4 (by simpa using h)
  · left; rfl

/-- The routes that the loop ends with. -/
theorem mbLoop_spec {N : ℕ} {D : ℕ → ℕ → ℚ} {d : ℕ → ℚ} {C L : Option ℚ} {W : ℚ} {tsp : Router}
    {mmp : List (ℚ × ℕ × ℕ) → Option (List Bool)} (hm : SolvesRows mmp) (hd : d 0 = 0) (minimizeK second : Bool)
    (hneg : minimizeK = true ∨ Subadditive N tsp) {s : MbState} (hs : MbInv N D d C L W tsp s) (hf : MbFull s) :
    ((∃ s', MbInv N D d C L W tsp s' ∧ s'.sets.length ≤ 1 ∧ s'.sets.length ≤ s.sets.length) ∧
      ∀ fuel, s.sets.length < fuel → mbLoop (mbStep d C L minimizeK second W tsp mmp) fuel s = .error .valueError) ∨
    (∃ s', MbInv N D d C L W tsp s' ∧ 1 < s'.sets.length ∧ IsBest d C L W tsp s'.sets (max W 0) ∧
      ∀ fuel, s.sets.length < fuel → mbLoop (mbStep d C L minimizeK second W tsp mmp) fuel s = .ok (some s')) := by
  obtain ⟨n, hn⟩ : ∃ n, s.sets.length = n := ⟨_, rfl⟩
  induction n using Nat.strong_induction_on generalizing s with
  | _ n ih =>
    rcases mbStep_spec hm hd minimizeK second hs hf with ⟨h1, h2⟩ | ⟨h1, h2, h3⟩ | ⟨h1, h2, h3, h4, h5⟩ |
      ⟨s', i, j, a, b, h1, h2, h3, h4, h5, h6, h7, h8, h9, h10, h11⟩
    · refine Or.inl ⟨⟨s, hs, h1, le_refl _⟩, fun fuel hfu => ?_⟩
      obtain ⟨f, rfl⟩ : ∃ f, fuel = f + 1 := ⟨fuel - 1, by omega⟩
      rw [mbLoop, h2]
    · refine Or.inr ⟨s, hs, h1, h2, fun fuel hfu => ?_⟩
      obtain ⟨f, rfl⟩ : ∃ f, fuel = f + 1 := ⟨fuel - 1, by omega⟩
      rw [mbLoop, h3]
    · exfalso
      rcases hneg with hk | hsub
      · rw [h2] at hk; cases hk
      · obtain ⟨i, j, a, b, hi, hj, hij, hc, hlt⟩ := h5
        have hab := two_nodup hi hj hij hs.nodup
        have hp := nsUnion_perm (disjoint_of_nodup hab)
        rw [sav_of_canJoin hc] at hlt
        have := hsub a b (nsUnion a b) (hs.good _ (List.mem_of_getElem? hi)).1 (hs.good _ (List.mem_of_getElem? hj)).1 hp
          (fun x hx => by
            have hx' := hp.mem_iff.1 hx
            have : x ∈ s.sets.flatten := by
              rcases List.mem_append.1 hx' with h | h
              · exact List.mem_flatten.2 ⟨a, List.mem_of_getElem? hi, h⟩
              · exact List.mem_flatten.2 ⟨b, List.mem_of_getElem? hj, h⟩
            have := hs.perm.mem_iff.1 this
            rw [List.mem_range'_1] at this
            omega) (hp.nodup_iff.2 hab) (hs.good _ (List.mem_of_getElem? hi)).2.1 (hs.good _ (List.mem_of_getElem? hj)).2.1
          (nsUnion_sorted hab)
        linarith
    · rcases ih s'.sets.length (by omega) h7 h8 rfl with ⟨⟨t, t1, t2, t3⟩, ht⟩ | ⟨t, t1, t2, t3, ht⟩
      · refine Or.inl ⟨⟨t, t1, t2, by omega⟩, fun fuel hfu => ?_⟩
        obtain ⟨f, rfl⟩ : ∃ f, fuel = f + 1 := ⟨fuel - 1, by omega⟩
        rw [mbLoop, h1]
        exact ht f (by omega)
      · refine Or.inr ⟨t, t1, t2, t3, fun fuel hfu => ?_⟩
        obtain ⟨f, rfl⟩ : ∃ f, fuel = f + 1 := ⟨fuel - 1, by omega⟩
        rw [mbLoop, h1]
        exact ht f (by omega)

theorem flatten_singles (l : List ℕ) : (l.map fun i => [i]).flatten = l := by
  induction l with
  | nil => rfl
  | cons a t ih => simp [ih]

/-- The customers on their own, with any good cache. -/
theorem mbInv_singles {N : ℕ} {D : ℕ → ℕ → ℚ} {d : ℕ → ℚ} {C L : Option ℚ} {W : ℚ} {tsp : Router}
    {cache : TspCache} (hc : CacheGood tsp cache) : MbInv N D d C L W tsp ⟨[], mbSingles N, cache⟩ := by
  refine ⟨?_, ?_, fun e he => absurd he (List.not_mem_nil), hc⟩
  · change (mbSingles N).flatten.Perm _
    unfold mbSingles
    rw [flatten_singles]
    exact List.Perm.refl _
  · intro x hx
    obtain ⟨n, hn, rfl⟩ := List.mem_map.1 hx
    refine ⟨by simp, by simp, fun hs u hu _ => ?_⟩
    rw [List.perm_singleton.1 hu]
    unfold pyRange at hn
    rw [List.mem_range'_1] at hn
    exact hs n hn.1 (by omega)

theorem cacheGood_nil (tsp : Router) : CacheGood tsp [] := fun s v h => by cases h

theorem mbStart_spec {N : ℕ} {D : ℕ → ℕ → ℚ} {d : ℕ → ℚ} {C L : Option ℚ} {W : ℚ} {tsp : Router} :
    MbInv N D d C L W tsp (mbStart d C L N W tsp) ∧ MbFull (mbStart d C L N W tsp) ∧
      (mbStart d C L N W tsp).sets = mbSingles N := by
  have h0 := mbInv_singles (N := N) (D := D) (d := d) (C := C) (L := L) (W := W) (cacheGood_nil tsp)
  refine ⟨?_, ?_, rfl⟩
  · have := h0.eval (mbPairs (mbSingles N)) fun p hp => by
      obtain ⟨h1, h2, h3⟩ := mem_mbPairs.1 hp
      exact ⟨by omega, h2, h3⟩
    simpa [mbStart] using this
  · intro i j hij hj
    change j < (mbSingles N).length at hj
    obtain ⟨h1, -, -, -⟩ := mbEval_spec d C L W (mbPairs (mbSingles N)) (cacheGood_nil tsp)
    refine ⟨(sav d C L W tsp (mbSingles N)[i] (mbSingles N)[j], i, j), ?_, Or.inl rfl⟩
    change _ ∈ (mbEval d C L W tsp (mbPairs (mbSingles N)) []).1
    rw [h1]
    exact List.mem_map.2 ⟨(((mbSingles N)[i], i), ((mbSingles N)[j], j)),
      mem_mbPairs.2 ⟨hij, List.getElem?_eq_getElem _, List.getElem?_eq_getElem hj⟩, rfl⟩

/-- The tours of the routes. -/
theorem mbRoutes_spec {tsp : Router} (ss : List (List ℕ)) {cache : TspCache} (h : CacheGood tsp cache) :
    mbRoutes tsp ss cache = ss.map fun s => (tsp (0 :: s)).1 := by
  induction ss generalizing cache with
  | nil => rfl
  | cons s ss ih =>
    obtain ⟨h1, h2, -, -⟩ := getTsp_spec h s
    rw [mbRoutes]
    simp only [h1, ih h2, List.map_cons]

theorem tours_of {N : ℕ} {D : ℕ → ℕ → ℚ} {d : ℕ → ℚ} {C L : Option ℚ} {tsp : Router} (ht : TspRoutine D tsp)
    (ss : List (List ℕ)) (hg : ∀ x ∈ ss, MbGood N D d C L tsp x) (hr : ∀ x ∈ ss, ∀ n ∈ x, n ≠ 0) :
    ∃ us : List (List ℕ), List.Forall₂ (fun s u => u.Perm s ∧ tsp (0 :: s) = (wrap u, cost D (wrap u))) ss us ∧
      ss.map (fun s => (tsp (0 :: s)).1) = us.map wrap ∧ us.flatten.Perm ss.flatten ∧ ∀ u ∈ us, NNGood N D d C L u := by
  induction ss with
  | nil => exact ⟨[], by simp⟩
  | cons s ss ih =>
    obtain ⟨us, h1, h2, h3, h4⟩ := ih (fun x hx => hg x (List.mem_cons_of_mem _ hx))
      (fun x hx => hr x (List.mem_cons_of_mem _ hx))
    obtain ⟨g1, g2, g3⟩ := hg s (List.mem_cons_self ..)
    have hn : (0 :: s).Nodup := by
      refine List.nodup_cons.2 ⟨fun h => hr s (List.mem_cons_self ..) 0 h rfl, ?_⟩
      exact g2.imp fun h => by omega
    obtain ⟨u, hu, hut⟩ := ht s g1 hn
    refine ⟨u :: us, List.Forall₂.cons ⟨hu, hut⟩ h1, by simp [h2, hut], ?_, ?_⟩
    · simp only [List.flatten_cons]
      exact hu.append h3
    · intro x hx
      rcases List.mem_cons.1 hx with rfl | hx
      · exact ⟨fun e => g1 (by rw [e] at hu; exact hu.symm.eq_nil), fun hs => g3 hs _ hu hut⟩
      · exact h4 x hx

theorem wraps_tour (us : List (List ℕ)) : [0] ++ (us.map wrap).flatMap (fun r => r.drop 1) = tour us := by
  induction us with
  | nil => rfl
  | cons u us ih =>
    rw [tour, ← ih]
    simp [wrap]

theorem MbInv.ne_zero {N : ℕ} {D : ℕ → ℕ → ℚ} {d : ℕ → ℚ} {C L : Option ℚ} {W : ℚ} {tsp : Router} {s : MbState}
    (h : MbInv N D d C L W tsp s) : ∀ x ∈ s.sets, ∀ n ∈ x, n ≠ 0 := by
  intro x hx n hn
  have := h.perm.mem_iff.1 (List.mem_flatten.2 ⟨x, hx, hn⟩)
  rw [List.mem_range'_1] at this
  omega

end Verif
