import Verif.Spec.ProblemFile
import Verif.Props.OptFile
import Verif.Props.Tsplib

/-! # Lemmas on problem files -/

namespace Verif

open Spec

/-! ## Strings -/

theorem occurs_mem {sub : List Char} : ∀ {l : List Char}, occurs sub l = true → ∀ c ∈ sub, c ∈ l
  | [], h, c, hc => by
    have : sub <+: [] := List.isPrefixOf_iff_prefix.1 h
    exact this.subset hc
  | a :: t, h, c, hc => by
    rw [occurs, Bool.or_eq_true] at h
    rcases h with h | h
    · exact (List.isPrefixOf_iff_prefix.1 h).subset hc
    · exact List.mem_cons_of_mem _ (occurs_mem h c hc)

theorem not_occurs {sub l : List Char} {c : Char} (hc : c ∈ sub) (hl : c ∉ l) : occurs sub l = false := by
  rw [← Bool.not_eq_true]
  exact fun h => hl (occurs_mem h c hc)

theorem strip_sub {l : List Char} {c : Char} (h : c ∈ strip l) : c ∈ l := by
  unfold strip at h
  have h1 := (List.dropWhile_sublist isWS).subset (List.mem_reverse.1 h)
  exact (List.dropWhile_sublist isWS).subset (List.mem_reverse.1 h1)

theorem dropWhile_free {p : Char → Bool} {c : Char} {l : List Char} (h : p c = false) : (c :: l).dropWhile p = c :: l := by
  rw [List.dropWhile_cons, h]; rfl

theorem strip_ws {c : Char} (h : isWS c = true) (l : List Char) : strip (c :: l) = strip l := by
  unfold strip
  rw [List.dropWhile_cons, h]; rfl

theorem dropWhile_append_free {p : Char → Bool} {r : List Char} : ∀ {l : List Char}, (∃ c ∈ l, p c = false) →
    (l ++ r).dropWhile p = l.dropWhile p ++ r
  | [], h => by obtain ⟨c, hc, -⟩ := h; cases hc
  | a :: t, h => by
    rw [List.cons_append, List.dropWhile_cons, List.dropWhile_cons]
    by_cases ha : p a = true
    · rw [if_pos ha, if_pos ha]
      obtain ⟨c, hc, h⟩ := h
      refine dropWhile_append_free ⟨c, ?_, h⟩
      rcases List.mem_cons.1 hc with rfl | hc
      · rw [ha] at h; cases h
      · exact hc
    · rw [if_neg ha, if_neg ha]; rfl

theorem dropWhile_has {p : Char → Bool} : ∀ {l : List Char}, (∃ c ∈ l, p c = false) → ∃ c ∈ l.dropWhile p, p c = false
  | [], h => by obtain ⟨c, hc, -⟩ := h; cases hc
  | a :: t, h => by
    rw [List.dropWhile_cons]
    by_cases ha : p a = true
    · rw [if_pos ha]
      obtain ⟨c, hc, h⟩ := h
      refine dropWhile_has ⟨c, ?_, h⟩
      rcases List.mem_cons.1 hc with rfl | hc
      · rw [ha] at h; cases h
      · exact hc
    · rw [if_neg ha]; exact h

/-- A line end is stripped. -/
theorem strip_end {l : List Char} {c : Char} (hc : isWS c = true) (h : ∃ x ∈ l, isWS x = false) : strip (l ++ [c]) = strip l := by
  unfold strip
  rw [dropWhile_append_free h, List.reverse_append, List.reverse_singleton, List.singleton_append, List.dropWhile_cons, if_pos hc]

theorem strip_has {l : List Char} (h : ∃ x ∈ l, isWS x = false) : ∃ x ∈ strip l, isWS x = false := by
  unfold strip
  obtain ⟨x, hx, h1⟩ := dropWhile_has h
  obtain ⟨y, hy, h2⟩ := dropWhile_has (p := isWS) (l := (l.dropWhile isWS).reverse) ⟨x, List.mem_reverse.2 hx, h1⟩
  exact ⟨y, List.mem_reverse.2 hy, h2⟩

/-- Nothing is stripped if both ends are not white space. -/
theorem strip_id {a b : Char} {l : List Char} (ha : isWS a = false) (hb : isWS b = false) (h : (a :: l).getLast? = some b) :
    strip (a :: l) = a :: l := by
  unfold strip
  rw [dropWhile_free ha]
  obtain ⟨r, hr⟩ := List.getLast?_eq_some_iff.1 h
  rw [hr, List.reverse_append, List.reverse_singleton, List.singleton_append, dropWhile_free hb, List.reverse_cons,
    List.reverse_reverse]

theorem word_strip {w : List Char} (h : Word w) : strip w = w := by
  obtain ⟨h0, h1⟩ := h
  cases w with
  | nil => exact absurd rfl h0
  | cons a l =>
    have hb := List.getLast?_eq_some_getLast (l := a :: l) (by simp)
    exact strip_id (h1 a (by simp)) (h1 _ (List.getLast_mem (by simp))) hb

theorem splitWS_free : ∀ {l : List Char}, (∀ c ∈ l, isWS c = true) → splitWS l = []
  | [], _ => rfl
  | c :: t, h => by
    rw [splitWS_ws (h c (by simp)), splitWS_free fun x hx => h x (by simp [hx])]

theorem splitWS_dropWhile : ∀ l : List Char, splitWS (l.dropWhile isWS) = splitWS l
  | [] => rfl
  | c :: t => by
    rw [List.dropWhile_cons]
    by_cases h : isWS c = true
    · rw [if_pos h, splitWS_ws h, splitWS_dropWhile t]
    · rw [if_neg h]

theorem splitWS_end {c : Char} (hc : isWS c = true) : ∀ l : List Char, splitWS (l ++ [c]) = splitWS l
  | [] => by rw [List.nil_append, splitWS_ws hc]
  | a :: t => by
    have ih := splitWS_end hc t
    rw [List.cons_append]
    by_cases ha : isWS a = true
    · rw [splitWS_ws ha, splitWS_ws ha, ih]
    · rw [Bool.not_eq_true] at ha
      rw [splitWS.eq_def]
      conv_rhs => rw [splitWS.eq_def]
      simp only [ha, Bool.false_eq_true, if_false]
      cases t with
      | nil => simp [hc, splitWS_ws hc, splitWS]
      | cons b t =>
        simp only [List.cons_append] at ih ⊢
        rw [ih]

theorem splitWS_reverse_dropWhile (l : List Char) : splitWS (l.dropWhile isWS).reverse = splitWS l.reverse := by
  induction l with
  | nil => rfl
  | cons c t ih =>
    rw [List.dropWhile_cons]
    by_cases h : isWS c = true
    · rw [if_pos h, ih, List.reverse_cons, splitWS_end h]
    · rw [if_neg h]

theorem splitWS_strip (l : List Char) : splitWS (strip l) = splitWS l := by
  unfold strip
  rw [splitWS_reverse_dropWhile, List.reverse_reverse, splitWS_dropWhile]

/-! ## Numbers -/

theorem showInt_plain {z : ℤ} {c : Char} (h : c ∈ showInt z) : c = '-' ∨ c.isDigit = true := by
  unfold showInt at h
  split_ifs at h
  · rcases List.mem_cons.1 h with h | h
    · exact Or.inl h
    · exact Or.inr (showNat_digit h)
  · exact Or.inr (showNat_digit h)

theorem word_showInt (z : ℤ) : Word (showInt z) := by
  refine ⟨?_, fun c hc => ?_⟩
  · unfold showInt
    split_ifs
    · simp
    · exact showNat_ne_nil _
  · rcases showInt_plain hc with rfl | h
    · decide
    · exact digit_not_ws h

theorem parseInt_showInt (z : ℤ) : parseInt (showInt z) = .ok z := by
  unfold parseInt
  rw [word_strip (word_showInt z)]
  unfold showInt
  by_cases hz : z < 0
  · rw [if_pos hz]
    show (parseNat (showNat z.natAbs)).map (fun n => -(n : ℤ)) = .ok z
    rw [parseNat_showNat]
    show Except.ok (-(z.natAbs : ℤ)) = .ok z
    congr 1
    omega
  · rw [if_neg hz]
    have hne := showNat_ne_nil z.natAbs
    have hd := fun c (h : c ∈ showNat z.natAbs) => showNat_digit h
    have hp := parseNat_showNat z.natAbs
    revert hne hd hp
    generalize showNat z.natAbs = w
    intro hne hd hp
    split
    · exact absurd (hd '-' (by simp)) (by decide)
    · exact absurd (hd '+' (by simp)) (by decide)
    · rw [hp]
      show Except.ok ((z.natAbs : ℤ)) = .ok z
      congr 1
      omega

theorem parseInt_ws {c : Char} (h : isWS c = true) (l : List Char) : parseInt (c :: l) = parseInt l := by
  unfold parseInt
  rw [strip_ws h]

theorem parseInt_showNat (n : ℕ) : parseInt (showNat n) = .ok n := by
  have := parseInt_showInt (n : ℤ)
  unfold showInt at this
  rw [if_neg (by omega)] at this
  simpa using this

/-! ## Lines -/

/-- The lines of a text whose last line has no line end. -/
theorem readlines_text (last : List Char) : ∀ {ls : List (List Char)}, (∀ l ∈ ls, '\n' ∉ l) →
    readlines ((ls.flatMap fun l => l ++ ['\n']) ++ last) = (ls.map fun l => l ++ ['\n']) ++ readlines last
  | [], _ => rfl
  | l :: ls, h => by
    rw [List.flatMap_cons, List.map_cons, List.append_assoc, List.append_assoc, List.singleton_append,
      readlines_line _ _ (h l (by simp)), readlines_text last fun x hx => h x (by simp [hx])]
    rfl

/-- A field with a value that is a word. -/
theorem tsKind_field {name w : List Char} (hn : Word name) (hc : ':' ∉ name) (hw : Word w) :
    tsKind (name ++ ':' :: ' ' :: w ++ ['\n']) = .field name (' ' :: w) := by
  obtain ⟨a, l, rfl⟩ := List.exists_cons_of_ne_nil hn.1
  have ha : isWS a = false := hn.2 a (by simp)
  have hlast : ((a :: l) ++ ':' :: ' ' :: w).getLast? = some (w.getLast hw.1) := by
    rw [List.getLast?_append_of_ne_nil _ (by simp), List.getLast?_cons_cons, List.getLast?_cons_of_ne_nil hw.1,
      List.getLast?_eq_some_getLast hw.1]
  have hs : strip (a :: l ++ ':' :: ' ' :: w ++ ['\n']) = a :: l ++ ':' :: ' ' :: w := by
    rw [strip_end (by decide) ⟨a, by simp, ha⟩, List.cons_append]
    exact strip_id ha (hw.2 _ (List.getLast_mem hw.1)) hlast
  unfold tsKind
  dsimp only
  rw [hs, if_neg (by simp), if_pos (by simp)]
  have h1 : ∀ c ∈ a :: l, (decide (c ≠ ':')) = true := by
    intro c hc'
    rw [decide_eq_true_eq]
    rintro rfl
    exact hc hc'
  rw [List.takeWhile_append_of_pos h1, List.takeWhile_cons_of_neg (by simp), List.append_nil, word_strip hn,
    List.dropWhile_append_of_pos h1, List.dropWhile_cons_of_neg (by simp)]
  rfl

/-- A line of data. -/
theorem tsKind_data {l : List Char} (h : ∀ c ∈ l, c.isUpper = false ∧ c ≠ ':') (hx : ∃ x ∈ l, isWS x = false) :
    tsKind l = .data (strip l) := by
  have hu : ∀ c, c.isUpper = true → c ∉ strip l := fun c hc hm => by
    rw [(h c (strip_sub hm)).1] at hc
    cases hc
  obtain ⟨x, hx1, -⟩ := strip_has hx
  unfold tsKind
  dsimp only
  rw [if_neg (List.ne_nil_of_mem hx1), if_neg (fun hm => (h _ (strip_sub hm)).2 rfl)]
  rw [not_occurs (c := 'E') (by decide) (hu _ (by decide)), not_occurs (c := 'E') (by decide) (hu _ (by decide)),
    not_occurs (c := 'D') (by decide) (hu _ (by decide)), not_occurs (c := 'D') (by decide) (hu _ (by decide)),
    not_occurs (c := 'N') (by decide) (hu _ (by decide)), not_occurs (c := 'D') (by decide) (hu _ (by decide)),
    not_occurs (c := 'S') (by decide) (hu _ (by decide))]
  simp

end Verif
