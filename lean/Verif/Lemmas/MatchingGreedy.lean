import Verif.Lemmas.MatchingLoop

/-! # Lemmas on the solution that is handed out on an interrupt of the savings heuristic with matchings -/

namespace Verif
open Spec

/-- The sets in the slots. -/
def slotSets (slots : List MbSlot) : List (List ℕ) := slots.filterMap fun s => s.elim some fun _ => none

/-- The number of references. -/
def slotRefs (slots : List MbSlot) : ℕ := slots.countP fun s => s.isRight

/-- The slots after a join. -/
def slotJoin (slots : List MbSlot) (i j : ℕ) (ab : List ℕ) : List MbSlot := (slots.set i (.inl ab)).set j (.inr i)

theorem perm_four {α : Type} {l r : List α} {a b : α} (h : l.Perm (b :: a :: r)) (x y : α) :
    (x :: y :: l).Perm (a :: b :: x :: y :: r) := by
  refine ((h.cons y).cons x).trans ?_
  have e : x :: y :: b :: a :: r = [x, y] ++ [b, a] ++ r := rfl
  have e' : a :: b :: x :: y :: r = [a, b] ++ [x, y] ++ r := rfl
  rw [e, e']
  exact (List.perm_append_comm.trans ((List.Perm.swap a b []).append_right _)).append_right r

theorem slotJoin_perm {slots : List MbSlot} {i j : ℕ} {a b : List ℕ} (hi : slots[i]? = some (.inl a))
    (hj : slots[j]? = some (.inl b)) (hij : i ≠ j) (ab : List ℕ) :
    ∃ rest, slots.Perm (.inl a :: .inl b :: rest) ∧ (slotJoin slots i j ab).Perm (.inr i :: .inl ab :: rest) := by
  obtain ⟨rest, hr⟩ := two_places hi hj hij
  refine ⟨rest, hr.trans (List.Perm.swap _ _ _), ?_⟩
  have h1 := perm_set hi (Sum.inl ab : MbSlot)
  have h2 : (slots.set i (.inl ab))[j]? = some (.inl b) := by rw [List.getElem?_set_ne hij]; exact hj
  have h3 := perm_set h2 (Sum.inr i : MbSlot)
  have h4 : (Sum.inl a :: Sum.inl b :: slotJoin slots i j ab).Perm
      (Sum.inl a :: Sum.inl b :: Sum.inr i :: Sum.inl ab :: rest) := by
    refine (h3.cons _).trans ((List.Perm.swap _ _ _).trans ((h1.cons _).trans ?_))
    exact perm_four hr _ _
  exact h4.cons_inv.cons_inv

theorem slotJoin_sets {slots : List MbSlot} {i j : ℕ} {a b : List ℕ} (hi : slots[i]? = some (.inl a))
    (hj : slots[j]? = some (.inl b)) (hij : i ≠ j) (ab : List ℕ) :
    (∃ rest, (slotSets slots).Perm (a :: b :: rest) ∧ (slotSets (slotJoin slots i j ab)).Perm (ab :: rest)) ∧
      slotRefs (slotJoin slots i j ab) = slotRefs slots + 1 := by
  obtain ⟨rest, h1, h2⟩ := slotJoin_perm hi hj hij ab
  refine ⟨⟨slotSets rest, ?_, ?_⟩, ?_⟩
  · exact h1.filterMap _
  · exact h2.filterMap _
  · unfold slotRefs
    rw [h1.countP_eq, h2.countP_eq]
    rw [List.countP_cons_of_pos rfl, List.countP_cons_of_neg (by simp), List.countP_cons_of_neg (by simp),
      List.countP_cons_of_neg (by simp)]

theorem mbFollow_root {slots : List MbSlot} {fuel i r : ℕ} {a : List ℕ}
    (h : mbFollow slots fuel i = .ok (some (r, a))) : slots[r]? = some (.inl a) := by
  induction fuel generalizing i with
  | zero => cases h
  | succ n ih =>
    rw [mbFollow] at h
    unfold idx at h
    cases hs : slots[i]? with
    | none => rw [hs] at h; cases h
    | some x =>
      rw [hs] at h
      cases x with
      | inl b =>
        simp only [Except.ok.injEq, Option.some.injEq, Prod.mk.injEq] at h
        rw [← h.1, ← h.2]; exact hs
      | inr k => exact ih h

theorem mbFollow_mono {slots : List MbSlot} {fuel i : ℕ} {x : ℕ × List ℕ}
    (h : mbFollow slots fuel i = .ok (some x)) {fuel' : ℕ} (hf : fuel ≤ fuel') : mbFollow slots fuel' i = .ok (some x) := by
  induction fuel generalizing i fuel' with
  | zero => cases h
  | succ n ih =>
    obtain ⟨m, rfl⟩ : ∃ m, fuel' = m + 1 := ⟨fuel' - 1, by omega⟩
    rw [mbFollow] at h ⊢
    unfold idx at h ⊢
    cases hs : slots[i]? with
    | none => rw [hs] at h; cases h
    | some y =>
      rw [hs] at h
      cases y with
      | inl b => exact h
      | inr k => exact ih h (by omega)

theorem mbFollow_join {slots : List MbSlot} {i j : ℕ} {a b : List ℕ} (hi : slots[i]? = some (.inl a))
    (hj : slots[j]? = some (.inl b)) (hij : i ≠ j) (ab : List ℕ) {fuel k : ℕ} {x : ℕ × List ℕ}
    (h : mbFollow slots fuel k = .ok (some x)) :
    ∃ y, mbFollow (slotJoin slots i j ab) (fuel + 1) k = .ok (some y) := by
  have hil := (List.getElem?_eq_some_iff.1 hi).1
  have hjl := (List.getElem?_eq_some_iff.1 hj).1
  have gi : (slotJoin slots i j ab)[i]? = some (.inl ab) := by
    unfold slotJoin
    rw [List.getElem?_set_ne (Ne.symm hij), List.getElem?_set_self hil]
  have gj : (slotJoin slots i j ab)[j]? = some (.inr i) := by
    unfold slotJoin
    rw [List.getElem?_set_self (by rw [List.length_set]; exact hjl)]
  induction fuel generalizing k with
  | zero => cases h
  | succ n ih =>
    rw [mbFollow] at h
    unfold idx at h
    by_cases h1 : k = i
    · rw [h1, mbFollow, idx, gi]; exact ⟨_, rfl⟩
    by_cases h2 : k = j
    · rw [h2, mbFollow, idx, gj]
      simp only
      rw [mbFollow, idx, gi]; exact ⟨_, rfl⟩
    have gk : (slotJoin slots i j ab)[k]? = slots[k]? := by
      unfold slotJoin
      rw [List.getElem?_set_ne (Ne.symm h2), List.getElem?_set_ne (Ne.symm h1)]
    rw [mbFollow, idx, gk]
    cases hs : slots[k]? with
    | none => rw [hs] at h; cases h
    | some y =>
      rw [hs] at h
      cases y with
      | inl c => exact ⟨_, rfl⟩
      | inr m => exact ih h

/-- The slots hold the customers, and each reference leads to a set. -/
structure SlotInv (N : ℕ) (n : ℕ) (slots : List MbSlot) : Prop where
  len : slots.length = n
  perm : (slotSets slots).flatten.Perm (List.range' 1 (N - 1))
  sets : ∀ x ∈ slotSets slots, x ≠ [] ∧ x.Pairwise (· < ·)
  follow : ∀ k < n, ∃ y, mbFollow slots (slotRefs slots + 1) k = .ok (some y)

theorem mem_slotSets {slots : List MbSlot} {x : List ℕ} : x ∈ slotSets slots ↔ Sum.inl x ∈ slots := by
  unfold slotSets
  rw [List.mem_filterMap]
  constructor
  · rintro ⟨s, hs, h⟩
    cases s with
    | inl a => simp only [Sum.elim_inl, Option.some.injEq] at h; rw [← h]; exact hs
    | inr k => simp at h
  · intro h
    exact ⟨_, h, rfl⟩

theorem SlotInv.nodup {N n : ℕ} {slots : List MbSlot} (h : SlotInv N n slots) : (slotSets slots).flatten.Nodup :=
  h.perm.nodup_iff.2 (List.nodup_range' ..)

theorem SlotInv.pair {N n : ℕ} {slots : List MbSlot} (h : SlotInv N n slots) {i j : ℕ} {a b : List ℕ}
    (hi : slots[i]? = some (.inl a)) (hj : slots[j]? = some (.inl b)) (hij : i ≠ j) : (a ++ b).Nodup := by
  obtain ⟨⟨rest, h1, -⟩, -⟩ := slotJoin_sets hi hj hij []
  have := h1.flatten.nodup_iff.1 h.nodup
  simp only [List.flatten_cons, ← List.append_assoc] at this
  exact List.Nodup.of_append_left this

theorem SlotInv.join {N n : ℕ} {slots : List MbSlot} (h : SlotInv N n slots) {i j : ℕ} {a b : List ℕ}
    (hi : slots[i]? = some (.inl a)) (hj : slots[j]? = some (.inl b)) (hij : i ≠ j) :
    SlotInv N n (slotJoin slots i j (nsUnion a b)) ∧
      (∀ x ∈ slotSets (slotJoin slots i j (nsUnion a b)), x = nsUnion a b ∨ (x ∈ slotSets slots ∧ x ≠ nsUnion a b)) := by
  obtain ⟨⟨rest, h1, h2⟩, h3⟩ := slotJoin_sets hi hj hij (nsUnion a b)
  have hab := h.pair hi hj hij
  have hp := nsUnion_perm (disjoint_of_nodup hab)
  have ha := h.sets a (mem_slotSets.2 (List.mem_of_getElem? hi))
  have hsub : ∀ x ∈ rest, x ∈ slotSets slots := fun x hx => h1.mem_iff.2 (by simp [hx])
  refine ⟨⟨by simp [slotJoin, h.len], ?_, ?_, ?_⟩, ?_⟩
  · refine (h2.flatten).trans (List.Perm.trans ?_ h.perm)
    refine List.Perm.trans ?_ h1.flatten.symm
    simp only [List.flatten_cons, ← List.append_assoc]
    exact hp.append_right _
  · intro x hx
    rcases List.mem_cons.1 (h2.mem_iff.1 hx) with rfl | hx
    · refine ⟨fun e => ?_, nsUnion_sorted hab⟩
      rw [e] at hp
      exact ha.1 (List.append_eq_nil_iff.1 hp.symm.eq_nil).1
    · exact h.sets x (hsub x hx)
  · intro k hk
    obtain ⟨y, hy⟩ := h.follow k hk
    rw [h3]
    exact mbFollow_join hi hj hij _ hy
  · intro x hx
    rcases List.mem_cons.1 (h2.mem_iff.1 hx) with rfl | hx
    · exact Or.inl rfl
    · refine Or.inr ⟨hsub x hx, fun e => ?_⟩
      have hn := h1.flatten.nodup_iff.1 h.nodup
      simp only [List.flatten_cons] at hn
      obtain ⟨c, hc⟩ := List.exists_mem_of_ne_nil _ ha.1
      have hd := disjoint_of_nodup hn
      refine hd hc (List.mem_append_right _ (List.mem_flatten.2 ⟨x, hx, ?_⟩))
      rw [e]
      exact hp.mem_iff.2 (List.mem_append_left _ hc)

/-- The cache has a good route for the set. -/
def Cached (N : ℕ) (D : ℕ → ℕ → ℚ) (d : ℕ → ℚ) (C L : Option ℚ) (cache : TspCache) (x : List ℕ) : Prop :=
  ∃ u : List ℕ, cache.lookup x = some (wrap u, cost D (wrap u)) ∧ u.Perm x ∧ (Serviceable N D d C L → RouteOk D d C L u)

theorem setIdx_two {slots : List MbSlot} {i j : ℕ} (hi : i < slots.length) (hj : j < slots.length) (ab : List ℕ) :
    setIdx slots i (.inl ab) = .ok (slots.set i (.inl ab)) ∧
      setIdx (slots.set i (.inl ab)) j (.inr i) = .ok (slotJoin slots i j ab) := by
  constructor
  · simp [setIdx, hi]
  · simp [setIdx, hj, slotJoin]

/-- The first pass. -/
theorem mbFirst_spec {N : ℕ} {D : ℕ → ℕ → ℚ} {d : ℕ → ℚ} {C L : Option ℚ} {W : ℚ} {tsp : Router}
    (ht : TspRoutine D tsp) (hd : d 0 = 0) {s : MbState} (hs : MbInv N D d C L W tsp s)
    (es : List (ℚ × ℕ × ℕ)) (hes : ∀ e ∈ es, e ∈ s.savings) (joined : List ℕ) (slots : List MbSlot)
    (hj : ∀ k, k ∉ joined → slots[k]? = s.sets[k]?.map Sum.inl) (hi : SlotInv N s.sets.length slots)
    (hc : ∀ x ∈ slotSets slots, Cached N D d C L s.cache x) :
    ∃ slots', mbFirst D L W es joined slots s.cache = .ok (slots', s.cache) ∧ SlotInv N s.sets.length slots' ∧
      ∀ x ∈ slotSets slots', Cached N D d C L s.cache x := by
  induction es generalizing joined slots with
  | nil => exact ⟨slots, rfl, hi, hc⟩
  | cons e es ih =>
    obtain ⟨w, i, j⟩ := e
    have hes' : ∀ e ∈ es, e ∈ s.savings := fun e he => hes e (List.mem_cons_of_mem _ he)
    rw [mbFirst]
    by_cases hw : w = W
    · rw [if_pos hw]; exact ⟨slots, rfl, hi, hc⟩
    rw [if_neg hw]
    by_cases hjo : (joined.contains i || joined.contains j) = true
    · rw [if_pos hjo]; exact ih hes' joined slots hj hi hc
    rw [if_neg hjo]
    simp only [Bool.or_eq_true, List.contains_iff_mem, not_or] at hjo
    obtain ⟨hne, a, b, ha, hb, hv, hk⟩ := hs.val (w, i, j) (hes _ (List.mem_cons_self ..))
    change i ≠ j at hne
    change s.sets[i]? = some a at ha
    change s.sets[j]? = some b at hb
    have hcj : CanJoin d C L tsp a b := canJoin_of_sav (by rw [← hv]; exact hw)
    have gi : slots[i]? = some (.inl a) := by rw [hj i hjo.1, ha]; rfl
    have gj : slots[j]? = some (.inl b) := by rw [hj j hjo.2, hb]; rfl
    simp only [idx, gi, gj]
    obtain ⟨v, hl⟩ := Option.isSome_iff_exists.1 (hk hcj (nsUnion a b) (by simp))
    rw [hl]
    simp only
    obtain ⟨e1, e2⟩ := setIdx_two (List.getElem?_eq_some_iff.1 gi).1 (List.getElem?_eq_some_iff.1 gj).1 (nsUnion a b)
    rw [e1]
    simp only [e2]
    obtain ⟨q1, q2⟩ := hi.join gi gj hne
    refine ih hes' (j :: i :: joined) _ ?_ q1 ?_
    · intro k hk
      simp only [List.mem_cons, not_or] at hk
      unfold slotJoin
      rw [List.getElem?_set_ne (Ne.symm hk.1), List.getElem?_set_ne (Ne.symm hk.2.1)]
      exact hj k hk.2.2
    · intro x hx
      rcases q2 x hx with rfl | ⟨hx, -⟩
      · obtain ⟨s1, e1, hs1, hu, -⟩ := mbJoin_spec hd hs ha hb hne hcj
        have hg := hs1.good _ (List.mem_of_getElem? hu)
        have hnz := hs1.ne_zero _ (List.mem_of_getElem? hu)
        have hn : (0 :: nsUnion a b).Nodup :=
          List.nodup_cons.2 ⟨fun h => hnz 0 h rfl, hg.2.1.imp fun h => by omega⟩
        obtain ⟨u, hu1, hu2⟩ := ht _ hg.1 hn
        have hv' := hs.cache _ _ hl
        refine ⟨u, by rw [hl, hv', hu2], hu1, fun h => hg.2.2 h u hu1 hu2⟩
      · exact hc x hx

/-- The best of the four ways to join two routes. -/
theorem mbSmash_spec {D : ℕ → ℕ → ℚ} (hD : Symm D) {u w : List ℕ} (hu : u ≠ []) (hw : w ≠ []) :
    ∃ v : List ℕ, v.Perm (u ++ w) ∧
      mbSmash D u w (cost D (wrap u)) (cost D (wrap w)) = .ok (wrap v, cost D (wrap v)) := by
  obtain ⟨na, hna⟩ : ∃ x, u.head? = some x := ⟨u.head hu, List.head?_eq_some_head hu⟩
  obtain ⟨nb, hnb⟩ : ∃ x, u.getLast? = some x := ⟨u.getLast hu, List.getLast?_eq_some_getLast hu⟩
  obtain ⟨nc, hnc⟩ : ∃ x, w.head? = some x := ⟨w.head hw, List.head?_eq_some_head hw⟩
  obtain ⟨nd, hnd⟩ : ∃ x, w.getLast? = some x := ⟨w.getLast hw, List.getLast?_eq_some_getLast hw⟩
  have i1 : idx u 0 = .ok na := by unfold idx; rw [← List.head?_eq_getElem?, hna]
  have i3 : idx w 0 = .ok nc := by unfold idx; rw [← List.head?_eq_getElem?, hnc]
  have i2 : idxNeg u 1 = .ok nb := by
    unfold idxNeg
    have := List.length_pos_of_ne_nil hu
    rw [if_neg (by omega)]
    unfold idx; rw [← List.getLast?_eq_getElem?, hnb]
  have i4 : idxNeg w 1 = .ok nd := by
    unfold idxNeg
    have := List.length_pos_of_ne_nil hw
    rw [if_neg (by omega)]
    unfold idx; rw [← List.getLast?_eq_getElem?, hnd]
  have ru : cost D (wrap u.reverse) = cost D (wrap u) := cost_wrap_turn hD (Or.inr rfl)
  have rw' : cost D (wrap w.reverse) = cost D (wrap w) := cost_wrap_turn hD (Or.inr rfl)
  have c0 := cost_wrap_merge D hnb hnc
  have c1 := cost_wrap_merge D (a := u.reverse) (b := w) (by rw [List.getLast?_reverse]; exact hna) hnc
  have c2 := cost_wrap_merge D (a := u) (b := w.reverse) hnb (by rw [List.head?_reverse]; exact hnd)
  have c3 := cost_wrap_merge D hnd hna
  have s0 := hD 0 nc
  have s1 := hD 0 nd
  have s2 := hD 0 na
  have s3 := hD nd na
  unfold mbSmash
  simp only [i1, i2, i3, i4]
  generalize hm : min (min (min (cost D (wrap u) + cost D (wrap w) + D nb nc - D nb 0 - D nc 0)
    (cost D (wrap u) + cost D (wrap w) + D na nc - D na 0 - D nc 0))
    (cost D (wrap u) + cost D (wrap w) + D nb nd - D nb 0 - D nd 0))
    (cost D (wrap u) + cost D (wrap w) + D na nd - D na 0 - D nd 0) = m
  by_cases h0 : cost D (wrap u) + cost D (wrap w) + D nb nc - D nb 0 - D nc 0 = m
  · rw [if_pos h0]
    refine ⟨u ++ w, List.Perm.refl _, ?_⟩
    rw [← h0, c0, s0]
    simp [wrap]; ring
  rw [if_neg h0]
  by_cases h1 : cost D (wrap u) + cost D (wrap w) + D na nc - D na 0 - D nc 0 = m
  · rw [if_pos h1]
    refine ⟨u.reverse ++ w, (List.reverse_perm u).append_right _, ?_⟩
    rw [← h1, c1, s0, ru]
    simp [wrap]; ring
  rw [if_neg h1]
  by_cases h2 : cost D (wrap u) + cost D (wrap w) + D nb nd - D nb 0 - D nd 0 = m
  · rw [if_pos h2]
    refine ⟨u ++ w.reverse, (List.reverse_perm w).append_left _, ?_⟩
    rw [← h2, c2, s1, rw']
    simp [wrap]; ring
  rw [if_neg h2]
  refine ⟨w ++ u, List.perm_append_comm, ?_⟩
  have h3 : cost D (wrap u) + cost D (wrap w) + D na nd - D na 0 - D nd 0 = m := by
    rcases min_choice (min (min (cost D (wrap u) + cost D (wrap w) + D nb nc - D nb 0 - D nc 0)
      (cost D (wrap u) + cost D (wrap w) + D na nc - D na 0 - D nc 0))
      (cost D (wrap u) + cost D (wrap w) + D nb nd - D nb 0 - D nd 0))
      (cost D (wrap u) + cost D (wrap w) + D na nd - D na 0 - D nd 0) with h | h
    · rw [hm] at h
      rcases min_choice (min (cost D (wrap u) + cost D (wrap w) + D nb nc - D nb 0 - D nc 0)
        (cost D (wrap u) + cost D (wrap w) + D na nc - D na 0 - D nc 0))
        (cost D (wrap u) + cost D (wrap w) + D nb nd - D nb 0 - D nd 0) with h' | h'
      · rw [← h] at h'
        rcases min_choice (cost D (wrap u) + cost D (wrap w) + D nb nc - D nb 0 - D nc 0)
          (cost D (wrap u) + cost D (wrap w) + D na nc - D na 0 - D nc 0) with h'' | h''
        · rw [← h'] at h''; exact absurd h''.symm h0
        · rw [← h'] at h''; exact absurd h''.symm h1
      · rw [← h] at h'; exact absurd h'.symm h2
    · rw [hm] at h; exact h.symm
  rw [← h3, c3, s2, s3]
  simp [wrap]; ring

theorem wrap_inner (u : List ℕ) : ((wrap u).drop 1).dropLast = u := by simp [wrap]

theorem cached_new {N : ℕ} {D : ℕ → ℕ → ℚ} {d : ℕ → ℚ} {C L : Option ℚ} {cache : TspCache} {x y : List ℕ}
    (h : Cached N D d C L cache x) (hxy : x ≠ y) (v : List ℕ × ℚ) : Cached N D d C L ((y, v) :: cache) x := by
  obtain ⟨u, h1, h2⟩ := h
  exact ⟨u, by rw [lookup_cons_ne' _ _ hxy]; exact h1, h2⟩

/-- A pair in the second pass. -/
theorem mbSecondBody_spec {N : ℕ} {D : ℕ → ℕ → ℚ} (hD : Symm D) {d : ℕ → ℚ} {C L : Option ℚ} (hd : d 0 = 0)
    {n i j : ℕ} (hin : i < n) (hjn : j < n) {slots : List MbSlot} {cache : TspCache} (hi : SlotInv N n slots)
    (hc : ∀ x ∈ slotSets slots, Cached N D d C L cache x) :
    ∃ slots' cache', mbSecondBody D d C L i j slots cache = .ok (some (slots', cache')) ∧ SlotInv N n slots' ∧
      ∀ x ∈ slotSets slots', Cached N D d C L cache' x := by
  have hr : slotRefs slots ≤ slots.length := List.countP_le_length
  obtain ⟨⟨k, a⟩, hk⟩ := hi.follow i hin
  obtain ⟨⟨l, b⟩, hl⟩ := hi.follow j hjn
  have hk' := mbFollow_mono hk (fuel' := slots.length + 1) (by omega)
  have hl' := mbFollow_mono hl (fuel' := slots.length + 1) (by omega)
  have gk := mbFollow_root hk
  have gl := mbFollow_root hl
  unfold mbSecondBody
  rw [hk', hl']
  simp only
  by_cases hkl : k = l
  · rw [if_pos hkl]; exact ⟨slots, cache, rfl, hi, hc⟩
  rw [if_neg hkl]
  have ma := mem_slotSets.2 (List.mem_of_getElem? gk)
  have mb := mem_slotSets.2 (List.mem_of_getElem? gl)
  obtain ⟨u, u1, u2, u3⟩ := hc a ma
  obtain ⟨w, w1, w2, w3⟩ := hc b mb
  simp only [cacheGet, u1, w1, wrap_inner]
  by_cases hC : exceeds C C_EPS (nsDemand d a + nsDemand d b) = true
  · rw [if_pos hC]; exact ⟨slots, cache, rfl, hi, hc⟩
  rw [if_neg hC]
  have hu : u ≠ [] := fun e => (hi.sets a ma).1 (by rw [e] at u2; exact u2.symm.eq_nil)
  have hw : w ≠ [] := fun e => (hi.sets b mb).1 (by rw [e] at w2; exact w2.symm.eq_nil)
  obtain ⟨v, v1, v2⟩ := mbSmash_spec hD hu hw
  rw [v2]
  simp only
  by_cases hL : exceeds L S_EPS (cost D (wrap v)) = true
  · rw [if_pos hL]; exact ⟨slots, cache, rfl, hi, hc⟩
  rw [if_neg hL]
  obtain ⟨e1, e2⟩ := setIdx_two (List.getElem?_eq_some_iff.1 gk).1 (List.getElem?_eq_some_iff.1 gl).1 (nsUnion a b)
  rw [e1]
  simp only [e2]
  obtain ⟨q1, q2⟩ := hi.join gk gl hkl
  have hab := hi.pair gk gl hkl
  have hp := nsUnion_perm (disjoint_of_nodup hab)
  have hvp : v.Perm (a ++ b) := v1.trans (u2.append w2)
  refine ⟨_, _, rfl, q1, ?_⟩
  intro x hx
  rcases q2 x hx with rfl | ⟨hx, hne⟩
  · refine ⟨v, lookup_cons_self' _ _ _, hvp.trans hp.symm, fun _ => ⟨?_, ?_⟩⟩
    · have hC' : exceeds C C_EPS (nsDemand d a + nsDemand d b) = false := by simpa using hC
      rw [nsDemand_eq hd, nsDemand_eq hd, ← demand_append, ← demand_perm d hvp] at hC'
      exact (exceeds_iff C C_EPS _).1 hC'
    · exact (exceeds_iff L S_EPS _).1 (by simpa using hL)
  · exact cached_new (hc x hx) hne _

theorem mbSecond_spec {N : ℕ} {D : ℕ → ℕ → ℚ} (hD : Symm D) {d : ℕ → ℚ} {C L : Option ℚ} (hd : d 0 = 0)
    {n : ℕ} (es : List (ℚ × ℕ × ℕ)) (hes : ∀ e ∈ es, e.2.1 < n ∧ e.2.2 < n) {slots : List MbSlot} {cache : TspCache}
    (hi : SlotInv N n slots) (hc : ∀ x ∈ slotSets slots, Cached N D d C L cache x) :
    ∃ slots' cache', mbSecond D d C L es slots cache = .ok (some (slots', cache')) ∧ SlotInv N n slots' ∧
      ∀ x ∈ slotSets slots', Cached N D d C L cache' x := by
  induction es generalizing slots cache with
  | nil => exact ⟨slots, cache, rfl, hi, hc⟩
  | cons e es ih =>
    obtain ⟨h1, h2⟩ := hes e (List.mem_cons_self ..)
    obtain ⟨slots1, cache1, e1, q1, q2⟩ := mbSecondBody_spec hD hd h1 h2 hi hc
    rw [mbSecond, e1]
    exact ih (fun e he => hes e (List.mem_cons_of_mem _ he)) q1 q2

theorem mbCollect_spec {N : ℕ} {D : ℕ → ℕ → ℚ} {d : ℕ → ℚ} {C L : Option ℚ} {cache : TspCache}
    (slots : List MbSlot) (hne : ∀ x ∈ slotSets slots, x ≠ []) (hc : ∀ x ∈ slotSets slots, Cached N D d C L cache x) :
    ∃ us : List (List ℕ), (∃ sol, mbCollect cache slots = .ok sol ∧ sol ++ [0] = tour us) ∧
      us.flatten.Perm (slotSets slots).flatten ∧ ∀ u ∈ us, NNGood N D d C L u := by
  induction slots with
  | nil => exact ⟨[], ⟨[], rfl, rfl⟩, by simp [slotSets], by simp⟩
  | cons s slots ih =>
    cases s with
    | inr k =>
      rw [mbCollect]
      exact ih hne hc
    | inl a =>
      have hm : ∀ x ∈ slotSets slots, x ∈ slotSets (Sum.inl a :: slots) := fun x hx => by
        rw [mem_slotSets] at hx ⊢; exact List.mem_cons_of_mem _ hx
      obtain ⟨us, ⟨sol, h1, h2⟩, h3, h4⟩ := ih (fun x hx => hne x (hm x hx)) (fun x hx => hc x (hm x hx))
      have ma : a ∈ slotSets (Sum.inl a :: slots) := mem_slotSets.2 (List.mem_cons_self ..)
      obtain ⟨u, u1, u2, u3⟩ := hc a ma
      refine ⟨u :: us, ⟨0 :: u ++ sol, ?_, ?_⟩, ?_, ?_⟩
      · rw [mbCollect, cacheGet, u1, h1]
        have : (wrap u).dropLast = 0 :: u := by
          rw [show wrap u = (0 :: u) ++ [0] from rfl, List.dropLast_concat]
        simp only [this]
      · rw [tour, ← h2]; simp
      · change (u ++ us.flatten).Perm (a ++ (slotSets slots).flatten)
        exact u2.append h3
      · intro x hx
        rcases List.mem_cons.1 hx with rfl | hx
        · exact ⟨fun e => hne a ma (by rw [e] at u2; exact u2.symm.eq_nil), u3⟩
        · exact h4 x hx

/-- The solution that is handed out if every route has been routed. -/
theorem geedyMerge_spec {N : ℕ} {D : ℕ → ℕ → ℚ} (hD : Symm D) {d : ℕ → ℚ} {C L : Option ℚ} {W : ℚ} {tsp : Router}
    (ht : TspRoutine D tsp) (hd : d 0 = 0) {s : MbState} (hs : MbInv N D d C L W tsp s)
    (hall : ∀ x ∈ s.sets, (s.cache.lookup x).isSome) :
    ∃ sol, geedyMerge D d C L W s = .ok (some sol) ∧ Solves N D d C L sol := by
  have hsets : slotSets (s.sets.map Sum.inl) = s.sets := by
    unfold slotSets
    rw [List.filterMap_map]
    have : (fun s : MbSlot => s.elim some fun _ => none) ∘ (Sum.inl : List ℕ → MbSlot) = some := rfl
    rw [this, List.filterMap_some]
  have hrefs : slotRefs (s.sets.map Sum.inl) = 0 := by
    unfold slotRefs
    rw [List.countP_eq_zero]
    intro x hx
    obtain ⟨a, _, rfl⟩ := List.mem_map.1 hx
    simp
  have hi : SlotInv N s.sets.length (s.sets.map Sum.inl) := by
    refine ⟨by simp, by rw [hsets]; exact hs.perm, ?_, ?_⟩
    · rw [hsets]
      exact fun x hx => ⟨(hs.good x hx).1, (hs.good x hx).2.1⟩
    · intro k hk
      rw [mbFollow, idx, List.getElem?_map, List.getElem?_eq_getElem hk]
      exact ⟨_, rfl⟩
  have hc : ∀ x ∈ slotSets (s.sets.map Sum.inl), Cached N D d C L s.cache x := by
    rw [hsets]
    intro x hx
    obtain ⟨v, hv⟩ := Option.isSome_iff_exists.1 (hall x hx)
    obtain ⟨g1, g2, g3⟩ := hs.good x hx
    have hn : (0 :: x).Nodup := List.nodup_cons.2 ⟨fun h => hs.ne_zero x hx 0 h rfl, g2.imp fun h => by omega⟩
    obtain ⟨u, u1, u2⟩ := ht x g1 hn
    exact ⟨u, by rw [hv, hs.cache _ _ hv, u2], u1, fun h => g3 h u u1 u2⟩
  have hmem : ∀ e ∈ pySort mbGe s.savings, e ∈ s.savings := fun e he => (pySort_perm _ _).mem_iff.1 he
  obtain ⟨slots1, e1, i1, c1⟩ := mbFirst_spec ht hd hs (pySort mbGe s.savings) hmem [] (s.sets.map Sum.inl)
    (fun k _ => by rw [List.getElem?_map]) hi hc
  obtain ⟨slots2, cache2, e2, i2, c2⟩ := mbSecond_spec hD hd (pySort mbGe s.savings) (fun e he => by
    obtain ⟨_, a, b, ha, hb, _⟩ := hs.val e (hmem e he)
    exact ⟨(List.getElem?_eq_some_iff.1 ha).1, (List.getElem?_eq_some_iff.1 hb).1⟩) i1 c1
  obtain ⟨us, ⟨sol, s1, s2⟩, s3, s4⟩ := mbCollect_spec slots2 (fun x hx => (i2.sets x hx).1) c2
  unfold geedyMerge
  simp only [e1, e2, s1]
  refine ⟨_, rfl, ?_⟩
  rw [s2]
  exact solves_good (s3.trans i2.perm) s4

end Verif
