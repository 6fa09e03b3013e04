import Verif.Lemmas.ProblemFields
import Verif.Spec.CoordFile

/-! # Lemmas on problem files with coordinates -/

namespace Verif

open Spec

/-! ## White space -/

theorem blank_ws {u : List Char} (h : Blanks u) : ∀ c ∈ u, isWS c = true := by
  intro c hc
  rcases h c hc with rfl | rfl <;> decide

theorem splitWS_blanks {u : List Char} (h : ∀ c ∈ u, isWS c = true) (l : List Char) : splitWS (u ++ l) = splitWS l := by
  induction u with
  | nil => rfl
  | cons c u ih => rw [List.cons_append, splitWS_ws (h c (by simp)), ih fun x hx => h x (by simp [hx])]

theorem splitWS_blanks_end {u : List Char} (h : ∀ c ∈ u, isWS c = true) (l : List Char) : splitWS (l ++ u) = splitWS l := by
  cases u with
  | nil => rw [List.append_nil]
  | cons c u => rw [splitWS_append (h c (by simp)), splitWS_free (l := u) fun x hx => h x (by simp [hx]), List.append_nil]

theorem strip_blanks {u : List Char} (h : ∀ c ∈ u, isWS c = true) (l : List Char) : strip (u ++ l) = strip l := by
  induction u with
  | nil => rfl
  | cons c u ih => rw [List.cons_append, strip_ws (h c (by simp)), ih fun x hx => h x (by simp [hx])]

theorem strip_all {l : List Char} (h : ∀ c ∈ l, isWS c = true) : strip l = [] := by
  have := strip_blanks h []
  rw [List.append_nil] at this
  rw [this]; rfl

theorem strip_blanks_end {u : List Char} (h : ∀ c ∈ u, isWS c = true) (l : List Char) : strip (l ++ u) = strip l := by
  by_cases hl : ∃ x ∈ l, isWS x = false
  · induction u using List.reverseRecOn with
    | nil => rw [List.append_nil]
    | append_singleton u c ih =>
      rw [← List.append_assoc, strip_end (h c (by simp)), ih fun x hx => h x (by simp [hx])]
      obtain ⟨x, hx, hx'⟩ := hl
      exact ⟨x, by simp [hx], hx'⟩
  · push Not at hl
    simp only [ne_eq, Bool.not_eq_false] at hl
    rw [strip_all hl, strip_all]
    intro c hc
    rcases List.mem_append.1 hc with hc | hc
    · exact hl c hc
    · exact h c hc

theorem dropWhile_split (l : List Char) : ∃ a, (∀ c ∈ a, isWS c = true) ∧ l = a ++ l.dropWhile isWS := by
  refine ⟨l.takeWhile isWS, fun c hc => ?_, (List.takeWhile_append_dropWhile).symm⟩
  exact List.all_eq_true.1 (List.all_takeWhile (l := l) (p := isWS)) c hc

theorem strip_split (l : List Char) : ∃ a b, (∀ c ∈ a, isWS c = true) ∧ (∀ c ∈ b, isWS c = true) ∧ l = a ++ strip l ++ b := by
  obtain ⟨a, ha, h1⟩ := dropWhile_split l
  obtain ⟨b, hb, h2⟩ := dropWhile_split (l.dropWhile isWS).reverse
  refine ⟨a, b.reverse, ha, fun c hc => hb c (List.mem_reverse.1 hc), ?_⟩
  have h3 := congrArg List.reverse h2
  rw [List.reverse_reverse, List.reverse_append] at h3
  unfold strip
  rw [List.append_assoc, ← h3]
  exact h1

theorem strip_word {u v w : List Char} (hu : ∀ c ∈ u, isWS c = true) (hv : ∀ c ∈ v, isWS c = true) (hw : Word w) :
    strip (u ++ w ++ v) = w := by
  rw [strip_blanks_end hv, strip_blanks hu, word_strip hw]

/-! ## Fields -/

/-- A line with a colon is a field, with its name and its value up to white space. -/
theorem tsKind_colon {a b : List Char} (ha : ':' ∉ a) :
    ∃ v, tsKind (a ++ ':' :: b ++ ['\n']) = .field (strip a) v ∧ strip v = strip b := by
  obtain ⟨x, y, hx, hy, e⟩ := strip_split (a ++ ':' :: b ++ ['\n'])
  have hxc : ':' ∉ x := fun h => absurd (hx _ h) (by decide)
  have hyc : ':' ∉ y := fun h => absurd (hy _ h) (by decide)
  have hmem : ':' ∈ strip (a ++ ':' :: b ++ ['\n']) := by
    have : ':' ∈ a ++ ':' :: b ++ ['\n'] := by simp
    rw [e] at this
    simp only [List.mem_append] at this
    rcases this with (h | h) | h
    · exact absurd h hxc
    · exact h
    · exact absurd h hyc
  obtain ⟨p, q, hm⟩ : ∃ p q, strip (a ++ ':' :: b ++ ['\n']) = p ++ ':' :: q ∧ ':' ∉ p := by
    have := List.eq_append_cons_of_mem hmem
    obtain ⟨p, q, h1, h2⟩ := this
    exact ⟨p, q, h1, h2⟩
  obtain ⟨hm, hp⟩ := hm
  have tw : ∀ {p q : List Char}, ':' ∉ p → (p ++ ':' :: q).takeWhile (· ≠ ':') = p ∧ (p ++ ':' :: q).dropWhile (· ≠ ':') = ':' :: q := by
    intro p q hp
    have h1 : ∀ c ∈ p, (decide (c ≠ ':')) = true := by
      intro c hc
      rw [decide_eq_true_eq]
      rintro rfl
      exact hp hc
    constructor
    · rw [List.takeWhile_append_of_pos h1, List.takeWhile_cons_of_neg (by simp), List.append_nil]
    · rw [List.dropWhile_append_of_pos h1, List.dropWhile_cons_of_neg (by simp)]
  rw [hm] at e
  have e' : a ++ ':' :: (b ++ ['\n']) = (x ++ p) ++ ':' :: (q ++ y) := by
    simpa using e
  have k1 := (tw (q := b ++ ['\n']) ha).1
  have k2 := (tw (q := b ++ ['\n']) ha).2
  have hxp : ':' ∉ x ++ p := by
    intro h
    rcases List.mem_append.1 h with h | h
    · exact hxc h
    · exact hp h
  rw [e'] at k1 k2
  rw [(tw hxp).1] at k1
  rw [(tw hxp).2] at k2
  have k3 : q ++ y = b ++ ['\n'] := by injection k2
  refine ⟨q, ?_, ?_⟩
  · unfold tsKind
    dsimp only
    rw [hm, if_neg (by simp), if_pos (by simp), (tw hp).1, (tw hp).2, ← k1, strip_blanks hx]
    rfl
  · have h1 := strip_blanks_end hy q
    rw [k3, strip_blanks_end (by decide)] at h1
    exact h1.symm

theorem parseInt_strip {v w : List Char} (h : strip v = strip w) : parseInt v = parseInt w := by
  unfold parseInt
  rw [h]

theorem occurs_strip {sub v : List Char} (h : occurs sub (strip v) = true) : occurs sub v = true := by
  obtain ⟨a, b, -, -, e⟩ := strip_split v
  rw [occurs_iff] at h ⊢
  rw [e]
  exact h.trans ⟨a, b, by simp⟩

/-- What a line changes. -/
def headStep (s : TsSt) : HField → TsSt
  | .dimension n => { s with N := n - 1 }
  | .capacity c => { s with C := some c }
  | .weights t => { s with ewt := some t }
  | .type _ => s
  | .other => s

theorem word_of {w : List Char} (h : (decide (w ≠ []) && w.all (fun c => !isWS c)) = true) : Word w := by
  rw [Bool.and_eq_true, decide_eq_true_eq, List.all_eq_true] at h
  exact ⟨h.1, fun c hc => by simpa using h.2 c hc⟩

theorem coordTypes_word {t : List Char} (h : t ∈ coordTypes) : Word t ∧ t ∈ tsTypes ∧ t ≠ "EXPLICIT".toList ∧ '\n' ∉ t := by
  unfold coordTypes at h
  simp only [List.map_cons, List.map_nil, List.mem_cons, List.not_mem_nil, or_false] at h
  rcases h with rfl | rfl | rfl | rfl | rfl | rfl | rfl | rfl <;> exact ⟨word_of (by decide), by decide +kernel, by decide, by decide⟩

theorem named_kind {name w l : List Char} (hn : Word name) (hc : ':' ∉ name) (hw : Word w) (h : Named name w l) :
    ∃ v, tsKind (l ++ ['\n']) = .field name v ∧ strip v = w := by
  obtain ⟨u, v, u', v', hu, hv, hu', hv', rfl⟩ := h
  have hb : ∀ {u : List Char}, Blanks u → ':' ∉ u := by
    intro u h hm
    rcases h _ hm with h | h <;> exact absurd h (by decide)
  obtain ⟨x, h1, h2⟩ := tsKind_colon (a := u ++ name ++ v) (b := u' ++ w ++ v') (by
    intro h
    simp only [List.mem_append] at h
    rcases h with (h | h) | h
    · exact hb hu h
    · exact hc h
    · exact hb hv h)
  rw [strip_word (blank_ws hu) (blank_ws hv) hn] at h1
  rw [strip_word (blank_ws hu') (blank_ws hv') hw] at h2
  exact ⟨x, h1, h2⟩

theorem tsLine_head {env : TsEnv} {f : HField} {l : List Char} (h : f.Line l) (s : TsSt) :
    tsLine env (tsKind (l ++ ['\n'])) s = .ok (some (headStep s f)) := by
  cases f with
  | dimension n =>
    obtain ⟨v, h1, h2⟩ := named_kind (word_of (by decide)) (by decide) (word_show n) h
    have hf : tsField "DIMENSION".toList = .dimension := by decide +kernel
    have hp : parseInt v = .ok (n : ℤ) := by
      rw [parseInt_strip (w := showNat n) (by rw [h2, word_strip (word_show n)]), parseInt_showNat]
    rw [h1]
    simp only [tsLine, hf, tsSetField, hp]
    rfl
  | capacity c =>
    obtain ⟨v, h1, h2⟩ := named_kind (word_of (by decide)) (by decide) (word_showInt c) h
    have hf : tsField "CAPACITY".toList = .capacity := by decide +kernel
    have hp : parseInt v = .ok c := by
      rw [parseInt_strip (w := showInt c) (by rw [h2, word_strip (word_showInt c)]), parseInt_showInt]
    rw [h1]
    simp only [tsLine, hf, tsSetField, hp]
    rfl
  | weights t =>
    obtain ⟨v, h1, h2⟩ := named_kind (word_of (by decide)) (by decide) (coordTypes_word h.1).1 h.2
    have hf : tsField "EDGE_WEIGHT_TYPE".toList = .ewt := by decide +kernel
    rw [h1]
    simp only [tsLine, hf, tsSetField, h2]
    rw [if_pos (coordTypes_word h.1).2.1]
    rfl
  | type t =>
    have ht : Word t := by rcases h.1 with rfl | rfl <;> exact word_of (by decide)
    obtain ⟨v, h1, h2⟩ := named_kind (word_of (by decide)) (by decide) ht h.2
    have hf : tsField "TYPE".toList = .type := by decide +kernel
    rw [h1]
    simp only [tsLine, hf, tsSetField]
    rw [if_neg]
    · rfl
    · have : occurs "CVRP".toList v = true ∨ occurs "TSP".toList v = true := by
        rcases h.1 with rfl | rfl
        · left; exact occurs_strip (by rw [h2]; decide +kernel)
        · right; exact occurs_strip (by rw [h2]; decide +kernel)
      rcases this with h | h <;> rw [h] <;> simp
  | other =>
    obtain ⟨-, a, b, rfl, ha, hn⟩ := h
    obtain ⟨v, h1, -⟩ := tsKind_colon (b := b) ha
    have hno : ∀ name ∈ ["DIMENSION".toList, "CAPACITY".toList, "TYPE".toList, "EDGE_WEIGHT_FORMAT".toList],
        ∀ n2 : List Char, name <:+: n2 → occurs n2 (strip a) = false := by
      intro name hname n2 hn2
      rw [← Bool.not_eq_true]
      intro ho
      have h4 := occurs_iff.1 (occurs_strip ho)
      exact hn name hname (hn2.trans h4)
    have hf : tsField (strip a) = .other := by
      unfold tsField
      rw [if_neg, hno "DIMENSION".toList (by simp) _ (List.infix_refl _), hno "CAPACITY".toList (by simp) _ (List.infix_refl _),
        hno "TYPE".toList (by simp) "EDGE_WEIGHT_TYPE".toList (occurs_iff.1 (by decide +kernel)),
        hno "EDGE_WEIGHT_FORMAT".toList (by simp) _ (List.infix_refl _)]
      · rfl
      · intro he
        have := hno "TYPE".toList (by simp) _ (List.infix_refl _)
        rw [he] at this
        exact absurd this (by decide +kernel)
    rw [h1]
    simp only [tsLine, hf, tsSetField]
    rfl

theorem tsLoop_fields {env : TsEnv} {t : List TsKind} {fs : List HField} {ls : List (List Char)}
    (h : List.Forall₂ HField.Line fs ls) : ∀ {s : TsSt},
    tsLoop env (ls.map (fun l => tsKind (l ++ ['\n'])) ++ t) s = tsLoop env t (fs.foldl headStep s) := by
  induction h with
  | nil => intro s; rfl
  | cons h _ ih =>
    intro s
    rw [List.map_cons, List.cons_append, tsLoop_step (tsLine_head h s), ih]
    rfl

theorem heads_fold (fs : List HField) : ∀ s : TsSt, fs.foldl headStep s =
    { s with N := ((lastDimension fs).map fun n : ℕ => (n : ℤ) - 1).getD s.N, C := (lastCapacity fs).or s.C
             ewt := (lastWeights fs).or s.ewt } := by
  induction fs with
  | nil => intro s; rfl
  | cons f fs ih =>
    intro s
    rw [List.foldl_cons, ih]
    have e : ∀ {α : Type} (a : α) (l : List α), (a :: l).getLast? = l.getLast?.or (some a) := by
      intro α a l
      cases l with
      | nil => rfl
      | cons b l => rw [List.getLast?_cons_cons, List.getLast?_eq_some_getLast (by simp)]; rfl
    cases f <;> simp only [headStep, lastDimension, lastCapacity, lastWeights, List.filterMap_cons, e, Option.or_assoc, Option.some_or]
    cases (List.filterMap _ fs).getLast? <;> rfl

/-! ## Lines of numbers -/

theorem reads_word {float : List Char → Py ℚ} {w : List Char} {x : ℚ} (h : Reads float w x) : Word w :=
  ⟨h.1, fun c hc => plain_ws (h.2.1 c hc)⟩

theorem blank_plain {c : Char} (h : c = ' ' ∨ c = '\t') : c.isUpper = false ∧ c ≠ ':' := by
  rcases h with rfl | rfl <;> decide

theorem set_next {α : Type} (pre : List α) (k : ℕ) (a x : α) :
    (pre ++ List.replicate (k + 1) a).set pre.length x = pre ++ [x] ++ List.replicate k a := by
  rw [List.set_append_right _ _ (le_refl _), Nat.sub_self, List.replicate_succ, List.set_cons_zero, List.append_assoc]
  rfl

theorem demandLine_kind {float : List Char → Py ℚ} {x : ℚ} {l : List Char} (h : DemandLine float x l) :
    '\n' ∉ l ∧ ∃ line i w, tsKind (l ++ ['\n']) = .data line ∧ splitWS line = [i, w] ∧ float w = .ok x := by
  obtain ⟨u, i, v, w, u', hu, hv, hu', hw, rfl⟩ := h
  have hall : ∀ c ∈ u ++ showNat i ++ ' ' :: (v ++ w ++ u'), (c.isUpper = false ∧ c ≠ ':') ∧ c ≠ '\n' := by
    intro c hc
    simp only [List.mem_append, List.mem_cons] at hc
    have hb : ∀ {u : List Char}, Blanks u → c ∈ u → (c.isUpper = false ∧ c ≠ ':') ∧ c ≠ '\n' := by
      intro u hu h
      refine ⟨blank_plain (hu c h), ?_⟩
      rcases hu c h with rfl | rfl <;> decide
    rcases hc with (hc | hc) | rfl | (hc | hc) | hc
    · exact hb hu hc
    · have := digit_plain (showNat_digit hc)
      exact ⟨⟨this.1, this.2.1⟩, fun h => this.2.2 (by simp [h])⟩
    · decide
    · exact hb hv hc
    · have := hw.2.1 c hc
      exact ⟨⟨this.1, this.2.1⟩, fun h => this.2.2 (by simp [h])⟩
    · exact hb hu' hc
  refine ⟨fun h => (hall _ h).2 rfl, _, showNat i, w, tsKind_data (fun c hc => ?_) ?_, ?_, hw.2.2⟩
  · rcases List.mem_append.1 hc with hc | hc
    · exact (hall c hc).1
    · rw [List.mem_singleton.1 hc]; decide
  · obtain ⟨a, t, ha⟩ := List.exists_cons_of_ne_nil (showNat_ne_nil i)
    exact ⟨a, by rw [ha]; simp, (word_show i).2 a (by rw [ha]; simp)⟩
  · rw [splitWS_strip, splitWS_end (by decide), splitWS_append (by decide), splitWS_blanks (blank_ws hu), splitWS_one (word_show i),
      splitWS_blanks_end (blank_ws hu'), splitWS_blanks (blank_ws hv), splitWS_one (reads_word hw)]
    rfl

theorem coordLine_kind {float : List Char → Py ℚ} {p : ℚ × ℚ} {l : List Char} (h : CoordLine float p l) :
    '\n' ∉ l ∧ ∃ line i w w', tsKind (l ++ ['\n']) = .data line ∧ splitWS line = [i, w, w'] ∧ float w = .ok p.1 ∧ float w' = .ok p.2 := by
  obtain ⟨u, i, v, w, v', w', u', hu, hv, hv', hu', hw, hw', rfl⟩ := h
  have hall : ∀ c ∈ u ++ showNat i ++ ' ' :: (v ++ w ++ ' ' :: (v' ++ w' ++ u')), (c.isUpper = false ∧ c ≠ ':') ∧ c ≠ '\n' := by
    intro c hc
    simp only [List.mem_append, List.mem_cons] at hc
    have hb : ∀ {u : List Char}, Blanks u → c ∈ u → (c.isUpper = false ∧ c ≠ ':') ∧ c ≠ '\n' := by
      intro u hu h
      refine ⟨blank_plain (hu c h), ?_⟩
      rcases hu c h with rfl | rfl <;> decide
    have hr : ∀ {w : List Char} {x : ℚ}, Reads float w x → c ∈ w → (c.isUpper = false ∧ c ≠ ':') ∧ c ≠ '\n' := by
      intro w x hw h
      have := hw.2.1 c h
      exact ⟨⟨this.1, this.2.1⟩, fun h => this.2.2 (by simp [h])⟩
    rcases hc with (hc | hc) | rfl | (hc | hc) | rfl | (hc | hc) | hc
    · exact hb hu hc
    · have := digit_plain (showNat_digit hc)
      exact ⟨⟨this.1, this.2.1⟩, fun h => this.2.2 (by simp [h])⟩
    · decide
    · exact hb hv hc
    · exact hr hw hc
    · decide
    · exact hb hv' hc
    · exact hr hw' hc
    · exact hb hu' hc
  refine ⟨fun h => (hall _ h).2 rfl, _, showNat i, w, w', tsKind_data (fun c hc => ?_) ?_, ?_, hw.2.2, hw'.2.2⟩
  · rcases List.mem_append.1 hc with hc | hc
    · exact (hall c hc).1
    · rw [List.mem_singleton.1 hc]; decide
  · obtain ⟨a, t, ha⟩ := List.exists_cons_of_ne_nil (showNat_ne_nil i)
    exact ⟨a, by rw [ha]; simp, (word_show i).2 a (by rw [ha]; simp)⟩
  · rw [splitWS_strip, splitWS_end (by decide), splitWS_append (by decide), splitWS_blanks (blank_ws hu), splitWS_one (word_show i),
      splitWS_append (by decide), splitWS_blanks (blank_ws hv), splitWS_one (reads_word hw), splitWS_blanks_end (blank_ws hu'),
      splitWS_blanks (blank_ws hv'), splitWS_one (reads_word hw')]
    rfl

/-- The place of a node as it is stored. -/
def stored (env : TsEnv) (geo : Bool) (p : ℚ × ℚ) : Option ℚ × Option ℚ :=
  if geo then (some (env.geo p.1), some (env.geo p.2)) else (some p.1, some p.2)

theorem tsLoop_coords {env : TsEnv} {rest : List TsKind} {ps : List (ℚ × ℚ)} {ls : List (List Char)}
    (h : List.Forall₂ (CoordLine env.float) ps ls) : ∀ {s : TsSt} {pre : List (Option ℚ × Option ℚ)} {k : ℕ}, s.sec = .coords →
    s.points = some (pre ++ List.replicate k (none, none)) → s.pos = pre.length → ps.length ≤ k →
    tsLoop env (ls.map (fun l => tsKind (l ++ ['\n'])) ++ rest) s = tsLoop env rest
      { s with points := some (pre ++ ps.map (stored env (decide (s.ewt = some "GEO".toList))) ++ List.replicate (k - ps.length) (none, none))
               pos := pre.length + ps.length } := by
  induction h with
  | nil =>
    intro s pre k h1 h2 h3 hk
    simp only [List.map_nil, List.nil_append, List.append_nil, List.length_nil, Nat.sub_zero, Nat.add_zero, ← h2, ← h3]
  | @cons p l ps ls h _ ih =>
    intro s pre k h1 h2 h3 hk
    obtain ⟨k, rfl⟩ : ∃ m, k = m + 1 := ⟨k - 1, by simp at hk; omega⟩
    obtain ⟨-, line, i, w, w', hl, hsp, hx, hy⟩ := coordLine_kind h
    rw [List.map_cons, List.cons_append, hl]
    have hstep : tsLine env (.data line) s = .ok (some { s with
        points := some (pre ++ [stored env (decide (s.ewt = some "GEO".toList)) p] ++ List.replicate k (none, none))
        pos := s.pos + 1 }) := by
      have hp : tsPoint env line = .ok p := by
        have i1 : idx [i, w, w'] 1 = .ok w := rfl
        have i2 : idx [i, w, w'] 2 = .ok w' := rfl
        simp only [tsPoint, tsNumber, hsp, i1, i2, hx, hy]
      simp only [tsLine, tsData, h1, hp, h2, setItem, Option.getD_some]
      rw [if_pos (by rw [h3]; simp)]
      simp only [h3, set_next]
      by_cases hg : s.ewt = some "GEO".toList
      · simp only [hg, if_true, stored, decide_true]; rfl
      · simp only [hg, if_false, stored, decide_false, Bool.false_eq_true]; rfl
    rw [tsLoop_step hstep, ih (s := { s with
        points := some (pre ++ [stored env (decide (s.ewt = some "GEO".toList)) p] ++ List.replicate k (none, none))
        pos := s.pos + 1 }) (pre := pre ++ [stored env (decide (s.ewt = some "GEO".toList)) p]) (k := k) h1 rfl
      (by rw [List.length_append]; simp [h3]) (by simpa using hk)]
    congr 1
    simp only [List.map_cons, List.length_cons, List.length_append, List.append_assoc, List.singleton_append, List.length_nil]
    have e1 : k + 1 - (ps.length + 1) = k - ps.length := by omega
    have e2 : pre.length + (0 + 1) + ps.length = pre.length + (ps.length + 1) := by omega
    rw [e1, e2]

theorem tsLoop_demands {env : TsEnv} {rest : List TsKind} {ds : List ℚ} {ls : List (List Char)}
    (h : List.Forall₂ (DemandLine env.float) ds ls) : ∀ {s : TsSt} {pre : List (Option ℚ)} {k : ℕ}, s.sec = .demands →
    s.demands = some (pre ++ List.replicate k none) → s.pos = pre.length → ds.length ≤ k →
    tsLoop env (ls.map (fun l => tsKind (l ++ ['\n'])) ++ rest) s = tsLoop env rest
      { s with demands := some (pre ++ ds.map some ++ List.replicate (k - ds.length) none)
               pos := pre.length + ds.length } := by
  induction h with
  | nil =>
    intro s pre k h1 h2 h3 hk
    simp only [List.map_nil, List.nil_append, List.append_nil, List.length_nil, Nat.sub_zero, Nat.add_zero, ← h2, ← h3]
  | @cons x l ds ls h _ ih =>
    intro s pre k h1 h2 h3 hk
    obtain ⟨k, rfl⟩ : ∃ m, k = m + 1 := ⟨k - 1, by simp at hk; omega⟩
    obtain ⟨-, line, i, w, hl, hsp, hx⟩ := demandLine_kind h
    rw [List.map_cons, List.cons_append, hl]
    have hstep : tsLine env (.data line) s = .ok (some { s with
        demands := some (pre ++ [some x] ++ List.replicate k none), pos := s.pos + 1 }) := by
      have i1 : idx [i, w] 1 = .ok w := rfl
      simp only [tsLine, tsData, h1, tsNumber, hsp, i1, hx, h2, setItem, Option.getD_some]
      rw [if_pos (by rw [h3]; simp)]
      simp only [h3, set_next]
      rfl
    rw [tsLoop_step hstep, ih (s := { s with
        demands := some (pre ++ [some x] ++ List.replicate k none), pos := s.pos + 1 }) (pre := pre ++ [some x]) (k := k) h1 rfl
      (by rw [List.length_append]; simp [h3]) (by simpa using hk)]
    congr 1
    simp only [List.map_cons, List.length_cons, List.length_append, List.append_assoc, List.singleton_append, List.length_nil]
    have e1 : k + 1 - (ds.length + 1) = k - ds.length := by omega
    have e2 : pre.length + (0 + 1) + ds.length = pre.length + (ds.length + 1) := by omega
    rw [e1, e2]

/-- The line end does not matter. -/
theorem headLine_free {f : HField} {l : List Char} (h : f.Line l) : '\n' ∉ l := by
  have key : ∀ {name w l : List Char}, '\n' ∉ name → '\n' ∉ w → Named name w l → '\n' ∉ l := by
    rintro name w l h1 h2 ⟨u, v, u', v', hu, hv, hu', hv', rfl⟩ h
    have hb : ∀ {u : List Char}, Blanks u → '\n' ∉ u := by
      intro u h hm
      rcases h _ hm with h | h <;> exact absurd h (by decide)
    simp only [List.mem_append, List.mem_cons] at h
    rcases h with ((h | h) | h) | h | (h | h) | h
    · exact hb hu h
    · exact h1 h
    · exact hb hv h
    · exact absurd h (by decide)
    · exact hb hu' h
    · exact h2 h
    · exact hb hv' h
  cases f with
  | dimension n => exact key (by decide) (fun h => absurd (showNat_digit h) (by decide)) h
  | capacity c => exact key (by decide) (fun h => (showInt_all h).2.2 (by decide)) h
  | weights t => exact key (by decide) (coordTypes_word h.1).2.2.2 h.2
  | type t =>
    refine key (by decide) ?_ h.2
    rcases h.1 with rfl | rfl <;> decide
  | other => exact h.1

theorem forall_free {α : Type} {R : α → List Char → Prop} (hR : ∀ a l, R a l → '\n' ∉ l) {as : List α} {ls : List (List Char)}
    (h : List.Forall₂ R as ls) : ∀ l ∈ ls, '\n' ∉ l := by
  induction h with
  | nil => simp
  | cons h _ ih =>
    intro l hl
    rcases List.mem_cons.1 hl with rfl | hl
    · exact hR _ _ h
    · exact ih l hl

end Verif
