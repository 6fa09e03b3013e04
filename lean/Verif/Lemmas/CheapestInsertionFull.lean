import Verif.Lemmas.CheapestInsertion
import Verif.Spec.CheapestInsertion

/-! # The heap of the cheapest insertion heuristic holds every insertion that can be made -/

namespace Verif
open Spec

/-- The customer `c` can be put between `a` and `b`, in the terms of the route data. -/
structure FitsN (D : ℕ → ℕ → ℚ) (d : ℕ → ℚ) (C L : Option ℚ) (mk : Bool) (rd : CIRoute) (a b : CINode) (c : ℕ) :
    Prop where
  capacity : Within C C_EPS (rd.used + d c)
  saving : mk = false → detour D a.val c b.val ≤ D 0 c + D c 0
  length : Within L S_EPS (rd.cost + detour D a.val c b.val)

/-- The heap holds every insertion that can be made. -/
def HeapFull (D : ℕ → ℕ → ℚ) (d : ℕ → ℚ) (C L : Option ℚ) (mk : Bool) (rd : CIRoute) (un : List ℕ) : Prop :=
  ∀ c ∈ un, ∀ l a b r, rd.route = l ++ a :: b :: r → FitsN D d C L mk rd a b c →
    ∃ ins ∈ rd.heap, ins.customer = c ∧ ins.after = a ∧ ins.before = b

/-- The keys of the heap are right. -/
def HeapKeys (D : ℕ → ℕ → ℚ) (d : ℕ → ℚ) (C : Option ℚ) (strain : ℕ → ℕ → ℕ → ℚ × ℚ) (rd : CIRoute) : Prop :=
  ∀ ins ∈ rd.heap, ins.key = insKey D strain ins.after.val ins.customer ins.before.val ∧
    ins.demand_delta = if truthy C then d ins.customer else 0

theorem neighbours_insert {a n b x y : CINode} : ∀ {l r l' r' : List CINode},
    l ++ a :: n :: b :: r = l' ++ x :: y :: r' →
    (∃ l2 r2, l ++ a :: b :: r = l2 ++ x :: y :: r2) ∨ (x = a ∧ y = n) ∨ (x = n ∧ y = b) := by
  intro l
  induction l with
  | nil =>
    intro r l' r' h
    match l' with
    | [] =>
      simp only [List.nil_append, List.cons.injEq] at h
      exact .inr (.inl ⟨h.1.symm, h.2.1.symm⟩)
    | [p] =>
      simp only [List.nil_append, List.cons_append, List.cons.injEq] at h
      exact .inr (.inr ⟨h.2.1.symm, h.2.2.1.symm⟩)
    | p :: q :: l'' =>
      simp only [List.nil_append, List.cons_append, List.cons.injEq] at h
      refine .inl ⟨a :: l'', r', ?_⟩
      rw [List.nil_append, h.2.2]; rfl
  | cons z l ih =>
    intro r l' r' h
    match l' with
    | [] =>
      simp only [List.nil_append, List.cons_append, List.cons.injEq] at h
      obtain ⟨rfl, h⟩ := h
      match l with
      | [] =>
        simp only [List.nil_append, List.cons.injEq] at h
        obtain ⟨rfl, h⟩ := h
        exact .inl ⟨[], b :: r, rfl⟩
      | w :: l =>
        simp only [List.cons_append, List.cons.injEq] at h
        obtain ⟨rfl, h⟩ := h
        exact .inl ⟨[], l ++ a :: b :: r, rfl⟩
    | p :: l'' =>
      simp only [List.cons_append, List.cons.injEq] at h
      rcases ih h.2 with ⟨l2, r2, e⟩ | e
      · exact .inl ⟨z :: l2, r2, by rw [List.cons_append, e]; rfl⟩
      · exact .inr e

/-- An entry that is not made cannot be made. -/
theorem ciCandidate_some {D : ℕ → ℕ → ℚ} {d : ℕ → ℚ} {C L : Option ℚ} {mk : Bool} (strain : ℕ → ℕ → ℕ → ℚ × ℚ)
    {rd : CIRoute} {a b : CINode} {c : ℕ} (h : FitsN D d C L mk rd a b c) :
    ∃ ins, ciCandidate D d C L strain rd a b c = some ins ∧ ins.customer = c ∧ ins.after = a ∧ ins.before = b := by
  have e1 : ¬ exceeds C C_EPS (rd.used + if truthy C then d c else 0) = true := by
    by_cases hC : truthy C = true
    · rw [if_pos hC, (exceeds_iff _ _ _).2 h.capacity]; simp
    · unfold exceeds truthy at *
      cases C <;> simp_all
  have e2 : ¬ exceeds L S_EPS (rd.cost + (-D a.val b.val + D a.val c + D c b.val)) = true := by
    rw [(exceeds_iff _ _ _).2]; · simp
    convert h.length using 1
    unfold detour; ring
  unfold ciCandidate
  simp only
  rw [if_neg e1, if_neg e2]
  exact ⟨_, rfl, rfl, rfl, rfl⟩

theorem ciCandidate_key {D : ℕ → ℕ → ℚ} {d : ℕ → ℚ} {C L : Option ℚ} {strain : ℕ → ℕ → ℕ → ℚ × ℚ}
    {rd : CIRoute} {a b : CINode} {c : ℕ} {ins : Ins} (h : ciCandidate D d C L strain rd a b c = some ins) :
    ins.key = insKey D strain ins.after.val ins.customer ins.before.val ∧
      ins.demand_delta = if truthy C then d ins.customer else 0 := by
  unfold ciCandidate at h
  simp only at h
  by_cases e1 : exceeds C C_EPS (rd.used + if truthy C then d c else 0) = true
  · rw [if_pos e1] at h; cases h
  rw [if_neg e1] at h
  by_cases e2 : exceeds L S_EPS (rd.cost + (-D a.val b.val + D a.val c + D c b.val)) = true
  · rw [if_pos e2] at h; cases h
  rw [if_neg e2] at h
  injection h with h
  subst h
  refine ⟨?_, rfl⟩
  simp only [insKey, detour, Prod.mk.injEq, true_and]
  ring

theorem ciNewInsertions_keys {D : ℕ → ℕ → ℚ} {d : ℕ → ℚ} {C L : Option ℚ} {strain : ℕ → ℕ → ℕ → ℚ × ℚ}
    {rd : CIRoute} (h : HeapKeys D d C strain rd) (un : List ℕ) (a b : CINode) :
    HeapKeys D d C strain (ciNewInsertions D d C L strain un rd a b) := by
  intro ins hins
  rcases List.mem_append.1 hins with hins | hins
  · exact h ins hins
  · obtain ⟨c, _, hc⟩ := List.mem_filterMap.1 hins
    exact ciCandidate_key hc

theorem ciCandidate_same {D : ℕ → ℕ → ℚ} {d : ℕ → ℚ} {C L : Option ℚ} {strain : ℕ → ℕ → ℕ → ℚ × ℚ} {rd rd' : CIRoute}
    (h1 : rd'.used = rd.used) (h2 : rd'.cost = rd.cost) (a b : CINode) (c : ℕ) :
    ciCandidate D d C L strain rd' a b c = ciCandidate D d C L strain rd a b c := by
  unfold ciCandidate; rw [h1, h2]

theorem ciGenerate_fold {D : ℕ → ℕ → ℚ} {d : ℕ → ℚ} {C L : Option ℚ} {strain : ℕ → ℕ → ℕ → ℚ × ℚ} (un : List ℕ)
    (ps : List (CINode × CINode)) : ∀ rd : CIRoute, HeapKeys D d C strain rd →
    let rd' := ps.foldl (fun rd p => ciNewInsertions D d C L strain un rd p.1 p.2) rd
    rd'.route = rd.route ∧ rd'.used = rd.used ∧ rd'.cost = rd.cost ∧ HeapKeys D d C strain rd' ∧
      (∀ x ∈ rd.heap, x ∈ rd'.heap) ∧
      ∀ p ∈ ps, ∀ c ∈ un, ∀ ins, ciCandidate D d C L strain rd p.1 p.2 c = some ins → ins ∈ rd'.heap := by
  induction ps with
  | nil => intro rd h; exact ⟨rfl, rfl, rfl, h, fun x hx => hx, by simp⟩
  | cons p ps ih =>
    intro rd h
    obtain ⟨i1, i2, i3, i4, i5, i6⟩ := ih (ciNewInsertions D d C L strain un rd p.1 p.2) (ciNewInsertions_keys h un _ _)
    refine ⟨i1, i2, i3, i4, fun x hx => i5 x (List.mem_append_left _ hx), ?_⟩
    intro q hq c hc ins hins
    rcases List.mem_cons.1 hq with rfl | hq
    · exact i5 _ (List.mem_append_right _ (List.mem_filterMap.2 ⟨c, hc, hins⟩))
    · exact i6 q hq c hc ins ((ciCandidate_same rfl rfl _ _ _).trans hins)

theorem zip_tail_mem {α : Type} {a b : α} {l r : List α} : (a, b) ∈ (l ++ a :: b :: r).zip (l ++ a :: b :: r).tail := by
  induction l with
  | nil => simp
  | cons x l ih =>
    cases l with
    | nil => simp
    | cons y l =>
      simp only [List.cons_append, List.tail_cons, List.zip_cons_cons, List.mem_cons] at ih ⊢
      exact .inr ih

/-- Generating the entries. -/
theorem ciGenerate_full {D : ℕ → ℕ → ℚ} {d : ℕ → ℚ} {C L : Option ℚ} {mk : Bool} {strain : ℕ → ℕ → ℕ → ℚ × ℚ}
    {rd : CIRoute} {un : List ℕ} (hk : HeapKeys D d C strain rd) (hf : rd.heap = [] ∨ HeapFull D d C L mk rd un) :
    HeapFull D d C L mk (ciGenerate D d C L strain un rd) un ∧
      HeapKeys D d C strain (ciGenerate D d C L strain un rd) := by
  unfold ciGenerate
  by_cases hh : rd.heap = []
  · rw [if_pos hh]
    obtain ⟨i1, i2, i3, i4, -, i6⟩ := ciGenerate_fold (L := L) un (rd.route.zip rd.route.tail) rd hk
    refine ⟨?_, i4⟩
    intro c hc l a b r hr hfit
    rw [i1] at hr
    have hfit' : FitsN D d C L mk rd a b c := by
      obtain ⟨f1, f2, f3⟩ := hfit
      rw [i2] at f1; rw [i3] at f3
      exact ⟨f1, f2, f3⟩
    obtain ⟨ins, h1, h2⟩ := ciCandidate_some strain hfit'
    exact ⟨ins, i6 (a, b) (by rw [hr]; exact zip_tail_mem) c hc ins h1, h2⟩
  · rw [if_neg hh]; exact ⟨hf.resolve_left hh, hk⟩

/-- The data of the route after an insertion. -/
theorem ciTry_route {D : ℕ → ℕ → ℚ} {d : ℕ → ℚ} {C L : Option ℚ} {P Q : Prop} {mk : Bool} {rd rd' : CIRoute}
    {ins : Ins} {nw : CINode} {un : List ℕ} (h : CIRouteOk D d C L P Q rd) (hi : InsOk D d C rd.route ins)
    (hv : ciValid d C ins rd un = true) (ht : ciTry D L mk ins rd = some (rd', nw)) :
    ∃ l r, rd.route = l ++ ins.after :: ins.before :: r ∧ rd'.route = l ++ ins.after :: nw :: ins.before :: r ∧
      rd'.cost = rd.cost + ins.cost_delta ∧ rd'.used = rd.used + ins.demand_delta ∧ rd'.heap = rd.heap ∧
      nw.val = ins.customer := by
  unfold ciValid at hv
  by_cases v1 : ins.customer ∉ un
  · rw [if_pos v1] at hv; cases hv
  rw [if_neg v1] at hv
  by_cases v2 : (ciNext rd.route ins.after.id).map (·.id) ≠ some ins.before.id
  · rw [if_pos v2] at hv; cases hv
  simp only [not_not] at v2
  obtain ⟨b, hb1, hb2⟩ := Option.map_eq_some_iff.1 v2
  obtain ⟨l, a, r, hr, ha⟩ := ciNext_spec hb1
  have hae : a = ins.after := node_eq h.ids (by rw [hr]; simp) hi.after ha
  have hbe : b = ins.before := node_eq h.ids (by rw [hr]; simp) hi.before hb2
  subst hae hbe
  unfold ciTry at ht
  split_ifs at ht
  simp only [Option.some.injEq, Prod.mk.injEq] at ht
  obtain ⟨rfl, rfl⟩ := ht
  refine ⟨l, r, hr, ?_, rfl, rfl, rfl, rfl⟩
  have hids := h.ids
  have hnb : ∀ y ∈ l ++ [ins.after], y.id ≠ ins.before.id := by
    intro y hy e
    have e' : rd.route = (l ++ [ins.after]) ++ ins.before :: r := by rw [hr]; simp
    rw [e', List.map_append, List.map_cons] at hids
    exact (List.nodup_append.1 hids).2.2 _ (List.mem_map_of_mem hy) _ (by simp) e
  show ciInsertBefore ⟨rd.route.length, ins.customer⟩ ins.before.id rd.route = _
  conv_lhs => arg 3; rw [hr]
  have := ciInsertBefore_eq ⟨rd.route.length, ins.customer⟩ ins.before (l ++ [ins.after]) r hnb
  simpa using this

theorem ciPopLoop_full {D : ℕ → ℕ → ℚ} {d : ℕ → ℚ} {C L : Option ℚ} {P Q : Prop} {mk : Bool}
    {strain : ℕ → ℕ → ℕ → ℚ × ℚ} {pick : List Ins → ℕ} (hpick : PickOk pick) {un : List ℕ} (hun : un.Nodup)
    (hd : ∀ i, 0 ≤ d i) (htri : ∀ a c b, 0 ≤ detour D a c b)
    (huse : ∀ (rd : CIRoute) (ins : Ins), CIRouteOk D d C L P Q rd → InsOk D d C rd.route ins →
      Usable D d C L mk rd un ins → ciValid d C ins rd un = true ∧ ciTry D L mk ins rd ≠ none) :
    ∀ (n : ℕ) (rd : CIRoute), rd.heap.length = n → CIRouteOk D d C L P Q rd → HeapFull D d C L mk rd un →
      HeapKeys D d C strain rd → ∀ rd' un', ciPopLoop D d C L strain mk pick un n rd = .ok (rd', un') →
        HeapFull D d C L mk rd' un' ∧ HeapKeys D d C strain rd' := by
  intro n
  induction n with
  | zero =>
    intro rd hn h hf hkeys rd' un' hp
    simp only [ciPopLoop, Except.ok.injEq, Prod.mk.injEq] at hp
    obtain ⟨rfl, rfl⟩ := hp
    exact ⟨hf, hkeys⟩
  | succ n ih =>
    intro rd hn h hf hkeys rd' un' hp
    have hlt := hpick rd.heap (by intro e; rw [e] at hn; simp at hn)
    have hget : rd.heap[pick rd.heap]? = some rd.heap[pick rd.heap] := List.getElem?_eq_getElem hlt
    generalize hins : rd.heap[pick rd.heap] = ins at hget
    have hmem : ins ∈ rd.heap := List.mem_of_getElem? hget
    have hiok := h.heap ins hmem
    have hs : ∀ x ∈ rd.heap.eraseIdx (pick rd.heap), x ∈ rd.heap := fun x hx => List.mem_of_mem_eraseIdx hx
    have h' := h.shrink hs
    have hl' : (rd.heap.eraseIdx (pick rd.heap)).length = n := by
      rw [List.length_eraseIdx_of_lt hlt, hn]; rfl
    have hsplit : ∀ y ∈ rd.heap, y = ins ∨ y ∈ rd.heap.eraseIdx (pick rd.heap) := by
      intro y hy
      obtain ⟨i, hi⟩ := List.mem_iff_getElem?.1 hy
      by_cases e : i = pick rd.heap
      · left; rw [e, hget] at hi; injection hi with hi; exact hi.symm
      · right; exact List.mem_eraseIdx_iff_getElem?.2 ⟨i, e, hi⟩
    have hkeys' : HeapKeys D d C strain { rd with heap := rd.heap.eraseIdx (pick rd.heap) } :=
      fun x hx => hkeys x (hs x hx)
    unfold ciPopLoop at hp
    rw [show idx rd.heap (pick rd.heap) = .ok ins by rw [idx, hget]] at hp
    simp only at hp
    have hdelta : ins.cost_delta = detour D ins.after.val ins.customer ins.before.val := by
      rw [hiok.delta, detour]; ring
    have hrest : ¬ (ciValid d C ins { rd with heap := rd.heap.eraseIdx (pick rd.heap) } un = true ∧
        ciTry D L mk ins { rd with heap := rd.heap.eraseIdx (pick rd.heap) } ≠ none) →
        HeapFull D d C L mk { rd with heap := rd.heap.eraseIdx (pick rd.heap) } un := by
      intro hnot c hc l a b r hr hfit
      obtain ⟨x, x1, rfl, rfl, rfl⟩ := hf c hc l a b r hr ⟨hfit.1, hfit.2, hfit.3⟩
      rcases hsplit x x1 with rfl | x1
      · exact absurd (huse _ x h' hiok ⟨hc, ⟨l, r, hr⟩, hfit.1, by rw [hdelta]; exact hfit.2,
          by rw [hdelta]; exact hfit.3⟩) hnot
      · exact ⟨x, x1, rfl, rfl, rfl⟩
    by_cases hv : ciValid d C ins { rd with heap := rd.heap.eraseIdx (pick rd.heap) } un = true
    · rw [if_pos hv] at hp
      cases ht : ciTry D L mk ins { rd with heap := rd.heap.eraseIdx (pick rd.heap) } with
      | none =>
        rw [ht] at hp
        exact ih _ hl' h' (hrest fun hh => hh.2 ht) hkeys' rd' un' hp
      | some p =>
        obtain ⟨rd2, nw⟩ := p
        rw [ht] at hp
        simp only [Except.ok.injEq, Prod.mk.injEq] at hp
        obtain ⟨rfl, rfl⟩ := hp
        obtain ⟨l, r, g1, g2, g3, g4, g5, g6⟩ := ciTry_route h' hiok hv ht
        have hk2 : HeapKeys D d C strain rd2 := by
          intro x hx; rw [g5] at hx; exact hkeys' x hx
        refine ⟨?_, ciNewInsertions_keys (ciNewInsertions_keys hk2 _ _ _) _ _ _⟩
        intro c hc l' a b r' hr hfit
        have hfit2 : FitsN D d C L mk rd2 a b c := ⟨hfit.1, hfit.2, hfit.3⟩
        have hr2 : rd2.route = l' ++ a :: b :: r' := hr
        rw [g2] at hr2
        have hdd : 0 ≤ ins.demand_delta := by
          rw [(hkeys ins hmem).2]; split_ifs
          · exact hd _
          · exact le_refl _
        rcases neighbours_insert hr2 with ⟨l2, r2, e⟩ | ⟨rfl, rfl⟩ | ⟨rfl, rfl⟩
        · have hold : FitsN D d C L mk rd a b c := by
            refine ⟨within_mono hfit2.1 ?_, hfit2.2, within_mono hfit2.3 ?_⟩
            · rw [g4]; simp only; linarith
            · rw [g3]; simp only
              have := htri ins.after.val ins.customer ins.before.val
              rw [← hdelta] at this
              linarith
          have hr0 : rd.route = l2 ++ a :: b :: r2 := by rw [← e]; exact g1
          have hne : c ≠ ins.customer := by
            rintro rfl
            exact (List.Nodup.not_mem_erase hun) hc
          obtain ⟨x, x1, x2, x3, x4⟩ := hf c (List.mem_of_mem_erase hc) l2 a b r2 hr0 hold
          refine ⟨x, List.mem_append_left _ (List.mem_append_left _ ?_), x2, x3, x4⟩
          rw [g5]
          rcases hsplit x x1 with rfl | x1
          · exact absurd x2.symm hne
          · exact x1
        · obtain ⟨x, x1, x2⟩ := ciCandidate_some strain hfit2
          exact ⟨x, List.mem_append_left _ (List.mem_append_right _ (List.mem_filterMap.2 ⟨c, hc, x1⟩)), x2⟩
        · obtain ⟨x, x1, x2⟩ := ciCandidate_some strain hfit2
          exact ⟨x, List.mem_append_right _ (List.mem_filterMap.2 ⟨c, hc, x1⟩), x2⟩
    · rw [if_neg hv] at hp
      exact ih _ hl' h' (hrest fun hh => hv hh.1) hkeys' rd' un' hp

end Verif
