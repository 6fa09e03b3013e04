import Verif.Lemmas.ProblemFileLimits
import Verif.Spec.ProblemFields

/-! # Lemmas on the additional constraints of a file -/

namespace Verif

open Spec

theorem occurs_iff {sub l : List Char} : occurs sub l = true ↔ sub <:+: l := by
  induction l with
  | nil =>
    rw [occurs, List.isPrefixOf_iff_prefix, List.prefix_nil, List.infix_nil]
  | cons c t ih =>
    rw [occurs, Bool.or_eq_true, ih, List.isPrefixOf_iff_prefix, List.infix_cons_iff]

/-- The words of a line are those before and after a blank. -/
theorem splitWS_append {c : Char} (hc : isWS c = true) (b : List Char) : ∀ a : List Char,
    splitWS (a ++ c :: b) = splitWS a ++ splitWS b
  | [] => by rw [List.nil_append, splitWS_ws hc]; rfl
  | x :: t => by
    have ih := splitWS_append hc b t
    rw [List.cons_append]
    by_cases hx : isWS x = true
    · rw [splitWS_ws hx, splitWS_ws hx, ih]
    · rw [Bool.not_eq_true] at hx
      rw [splitWS.eq_def]
      conv_rhs => rw [splitWS.eq_def]
      simp only [hx, Bool.false_eq_true, if_false]
      cases t with
      | nil => simp [hc, splitWS_ws hc]
      | cons y t =>
        simp only [List.cons_append] at ih ⊢
        rw [ih]
        by_cases hy : isWS y = true
        · simp only [hy, if_true, List.cons_append]
        · rw [Bool.not_eq_true] at hy
          simp only [hy, Bool.false_eq_true, if_false]
          have hne : splitWS (y :: t) ≠ [] := by
            rw [splitWS.eq_def]
            simp only [hy, Bool.false_eq_true, if_false]
            split
            · simp
            · split
              · simp
              · split <;> simp
          cases h : splitWS (y :: t) with
          | nil => exact absurd h hne
          | cons w ws => simp

theorem splitWS_one {w : List Char} (hw : Word w) : splitWS w = [w] := by
  have h := splitWS_word hw (c := '\n') (by decide) []
  rw [splitWS_end (by decide)] at h
  exact h

theorem splitWS_nil : splitWS [] = [] := rfl

/-- The last word. -/
theorem lastWord_line {a w : List Char} (hw : Word w) : lastWord (a ++ ' ' :: w ++ ['\n']) = .ok w := by
  unfold lastWord
  rw [splitWS_end (by decide), splitWS_append (by decide), splitWS_one hw, List.getLast?_append]
  rfl

theorem value_word {float : List Char → Py ℚ} {w : List Char} {x : ℚ} (h : Value float w x) : Word w := by
  rcases h with ⟨z, rfl, -⟩ | ⟨h0, hp, -⟩
  · exact word_showInt z
  · refine ⟨?_, fun c hc => plain_ws (hp c hc)⟩
    rintro rfl
    simp at h0

theorem value_plain {float : List Char → Py ℚ} {w : List Char} {x : ℚ} (h : Value float w x) : ∀ c ∈ w, Plain c := by
  rcases h with ⟨z, rfl, -⟩ | ⟨-, hp, -⟩
  · exact fun c hc => showInt_all hc
  · exact hp

theorem showInt_point (z : ℤ) : '.' ∉ showInt z := by
  unfold showInt
  split_ifs
  · intro h
    rcases List.mem_cons.1 h with h | h
    · exact absurd h (by decide)
    · exact absurd (showNat_digit h) (by decide)
  · exact fun h => absurd (showNat_digit h) (by decide)

/-- A number of a line, whose other part has no point. -/
theorem value_number {float : List Char → Py ℚ} {w : List Char} {x : ℚ} (h : Value float w x) {s : List Char}
    (hs : '.' ∈ s ↔ '.' ∈ w) : addNumber float s w = .ok x := by
  unfold addNumber
  rcases h with ⟨z, rfl, rfl⟩ | ⟨h0, -, hf⟩
  · rw [if_neg (fun h => showInt_point z (hs.1 h)), parseInt_showInt]
    rfl
  · rw [if_pos (hs.2 h0), hf]

/-! ## The fields -/

theorem seps_not {sep : List Char} (h : Seps sep) {c : Char} (hc : c ≠ ' ') (hc' : c ≠ ':') (hc'' : c ≠ '\t') : c ∉ sep := by
  intro hm
  rcases h c hm with h | h | h
  · exact hc h
  · exact hc' h
  · exact hc'' h

theorem field_not {name sep w : List Char} (hs : Seps sep) (hw : ∀ c ∈ w, Plain c) {c : Char} (hu : c.isUpper = true)
    (hn : c ∉ name) : c ∉ name ++ sep ++ ' ' :: w ++ ['\n'] := by
  intro h
  simp only [List.mem_append, List.mem_cons, List.not_mem_nil, or_false] at h
  rcases h with ((h | h) | h | h) | h
  · exact hn h
  · exact seps_not hs (by rintro rfl; cases hu) (by rintro rfl; cases hu) (by rintro rfl; cases hu) h
  · subst h; cases hu
  · rw [(hw c h).1] at hu; cases hu
  · subst h; cases hu

theorem field_has {name rest : List Char} : occurs name (name ++ rest) = true :=
  occurs_iff.2 (List.prefix_append _ _).isInfix

theorem field_last {float : List Char → Py ℚ} {name sep w : List Char} {x : ℚ} (hv : Value float w x) (hs : Seps sep)
    (hn : '.' ∉ name) : addLast float (name ++ sep ++ ' ' :: w ++ ['\n']) = .ok x := by
  unfold addLast
  rw [lastWord_line (value_word hv)]
  refine value_number hv ⟨fun h => ?_, fun h => by simp [h]⟩
  simp only [List.mem_append, List.mem_cons, List.not_mem_nil, or_false] at h
  rcases h with ((h | h) | h | h) | h
  · exact absurd h hn
  · exact absurd h (seps_not hs (by decide) (by decide) (by decide))
  · exact absurd h (by decide)
  · exact h
  · exact absurd h (by decide)

theorem addFields_distance {float : List Char → Py ℚ} {sep w : List Char} {x : ℚ} (hv : Value float w x) (hs : Seps sep)
    (s : AddSt) : addFields float ("DISTANCE".toList ++ sep ++ ' ' :: w ++ ['\n']) s = .ok { s with L := some x } := by
  have hn := fun {c : Char} (hu : c.isUpper = true) (h : c ∉ "DISTANCE".toList) => field_not (sep := sep) hs (value_plain hv) hu h
  have o1 : occurs "DISTANCE".toList ("DISTANCE".toList ++ sep ++ ' ' :: w ++ ['\n']) = true := by
    rw [List.append_assoc, List.append_assoc]; exact field_has
  have o2 : occurs "SERVICE_TIME".toList ("DISTANCE".toList ++ sep ++ ' ' :: w ++ ['\n']) = false :=
    not_occurs (c := 'R') (by decide) (hn (by decide) (by decide))
  have o3 : occurs "VEHICLES".toList ("DISTANCE".toList ++ sep ++ ' ' :: w ++ ['\n']) = false :=
    not_occurs (c := 'V') (by decide) (hn (by decide) (by decide))
  have o4 : occurs "SVC_TIME_SECTION".toList ("DISTANCE".toList ++ sep ++ ' ' :: w ++ ['\n']) = false :=
    not_occurs (c := 'V') (by decide) (hn (by decide) (by decide))
  simp only [addFields, o1, o2, o3, o4, field_last hv hs (by decide : '.' ∉ "DISTANCE".toList), if_true, Bool.false_eq_true,
    if_false, Bool.or_false]
  rfl

theorem addFields_service {float : List Char → Py ℚ} {sep w : List Char} {x : ℚ} (hv : Value float w x) (hs : Seps sep)
    (s : AddSt) : addFields float ("SERVICE_TIME".toList ++ sep ++ ' ' :: w ++ ['\n']) s = .ok { s with ST := some x } := by
  have hn := fun {c : Char} (hu : c.isUpper = true) (h : c ∉ "SERVICE_TIME".toList) => field_not (sep := sep) hs (value_plain hv) hu h
  have o1 : occurs "SERVICE_TIME".toList ("SERVICE_TIME".toList ++ sep ++ ' ' :: w ++ ['\n']) = true := by
    rw [List.append_assoc, List.append_assoc]; exact field_has
  have o2 : occurs "DISTANCE".toList ("SERVICE_TIME".toList ++ sep ++ ' ' :: w ++ ['\n']) = false :=
    not_occurs (c := 'D') (by decide) (hn (by decide) (by decide))
  have o3 : occurs "VEHICLES".toList ("SERVICE_TIME".toList ++ sep ++ ' ' :: w ++ ['\n']) = false :=
    not_occurs (c := 'H') (by decide) (hn (by decide) (by decide))
  have o4 : occurs "SVC_TIME_SECTION".toList ("SERVICE_TIME".toList ++ sep ++ ' ' :: w ++ ['\n']) = false :=
    not_occurs (c := 'O') (by decide) (hn (by decide) (by decide))
  simp only [addFields, o1, o2, o3, o4, field_last hv hs (by decide : '.' ∉ "SERVICE_TIME".toList), if_true, Bool.false_eq_true,
    if_false, Bool.or_false]
  rfl

theorem addFields_vehicles {float : List Char → Py ℚ} {sep : List Char} {z : ℤ} (hs : Seps sep)
    (s : AddSt) : addFields float ("VEHICLES".toList ++ sep ++ ' ' :: showInt z ++ ['\n']) s = .ok { s with K := some z } := by
  have hn := fun {c : Char} (hu : c.isUpper = true) (h : c ∉ "VEHICLES".toList) =>
    field_not (sep := sep) (w := showInt z) hs (fun c hc => showInt_all hc) hu h
  have o1 : occurs "VEHICLES".toList ("VEHICLES".toList ++ sep ++ ' ' :: showInt z ++ ['\n']) = true := by
    rw [List.append_assoc, List.append_assoc]; exact field_has
  have o2 : occurs "DISTANCE".toList ("VEHICLES".toList ++ sep ++ ' ' :: showInt z ++ ['\n']) = false :=
    not_occurs (c := 'D') (by decide) (hn (by decide) (by decide))
  have o3 : occurs "SERVICE_TIME".toList ("VEHICLES".toList ++ sep ++ ' ' :: showInt z ++ ['\n']) = false :=
    not_occurs (c := 'R') (by decide) (hn (by decide) (by decide))
  have o4 : occurs "SVC_TIME_SECTION".toList ("VEHICLES".toList ++ sep ++ ' ' :: showInt z ++ ['\n']) = false :=
    not_occurs (c := 'T') (by decide) (hn (by decide) (by decide))
  have hw : addWhole ("VEHICLES".toList ++ sep ++ ' ' :: showInt z ++ ['\n']) = .ok z := by
    unfold addWhole
    rw [lastWord_line (word_showInt z)]
    exact parseInt_showInt z
  simp only [addFields, o1, o2, o3, o4, hw, if_true, Bool.false_eq_true, if_false, Bool.or_false]
  rfl

theorem addFields_quiet {float : List Char → Py ℚ} {l : List Char} (h : quiet l = true) (s : AddSt) :
    addFields float l s = .ok s := by
  unfold quiet at h
  simp only [Bool.and_eq_true, Bool.not_eq_true'] at h
  obtain ⟨⟨⟨h1, h2⟩, h3⟩, h4⟩ := h
  simp only [Bool.false_eq_true, if_false, addFields, h1, h2, h3, h4, Bool.or_false]

/-- A word of capital letters that is on a line with its end is on the line. -/
theorem infix_end {sub l : List Char} {c : Char} (hs : c ∉ sub) (h : sub <:+: l ++ [c]) (h0 : sub ≠ []) : sub <:+: l := by
  rcases (List.infix_concat_iff).1 h with h | h
  · obtain ⟨t, ht⟩ := h
    rcases List.eq_nil_or_concat sub with rfl | ⟨sub', x, rfl⟩
    · exact absurd rfl h0
    · rw [List.concat_eq_append, ← List.append_assoc] at ht
      have := (List.append_inj' ht rfl).2
      simp only [List.cons.injEq, and_true] at this
      subst this
      simp at hs
  · exact h

theorem quiet_other {l : List Char} (h : ∀ name ∈ customNames, ¬ name <:+: l) : quiet (l ++ ['\n']) = true := by
  have key : ∀ name ∈ customNames, '\n' ∉ name → name ≠ [] → occurs name (l ++ ['\n']) = false := by
    intro name hn h1 h2
    rw [← Bool.not_eq_true, occurs_iff]
    exact fun h3 => h name hn (infix_end h1 h3 h2)
  unfold quiet
  rw [key "DISTANCE".toList (by simp [customNames]) (by decide) (by decide),
    key "SERVICE_TIME".toList (by simp [customNames]) (by decide) (by decide),
    key "VEHICLES".toList (by simp [customNames]) (by decide) (by decide),
    key "SVC_TIME_SECTION".toList (by simp [customNames]) (by decide) (by decide)]
  rfl

end Verif
