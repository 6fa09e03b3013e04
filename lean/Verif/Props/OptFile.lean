import Verif.Model.CvrpIo
import Verif.Lemmas.Util

/-!
# Solution files (C36)
-/

namespace Verif

open Spec

theorem optFileRoutes_eq (sol : List ℕ) : optFileRoutes sol = blocks sol := (pyGroupby_zero_blocks sol).1

/-! ## Digits -/

theorem showNat_digit {n : ℕ} {c : Char} (h : c ∈ showNat n) : c.isDigit = true :=
  Nat.isDigit_of_mem_toDigits (by decide) (by decide) h

theorem showNat_ne_nil (n : ℕ) : showNat n ≠ [] := Nat.toDigits_ne_nil

theorem parseNat_showNat (n : ℕ) : parseNat (showNat n) = .ok n := by
  rw [parseNat, if_pos ⟨showNat_ne_nil n, List.all_eq_true.2 fun c h => showNat_digit h⟩]
  congr 1
  have := Nat.ofDigitChars_ten_toDigits (n := n)
  rw [Nat.ofDigitChars_eq_foldl] at this
  exact this

theorem parseNats_show : ∀ l : List ℕ, parseNats (l.map showNat) = .ok l
  | [] => rfl
  | a :: t => by rw [List.map_cons, parseNats, parseNat_showNat, parseNats_show t]

theorem digit_range {c : Char} (h : c.isDigit = true) : 48 ≤ c.toNat ∧ c.toNat ≤ 57 := by
  simp only [Char.isDigit, Bool.and_eq_true, decide_eq_true_eq] at h
  exact ⟨h.1, h.2⟩

/-- A digit is none of the characters outside of the range of digits. -/
theorem digit_ne {c c' : Char} (h : c.isDigit = true) (h' : c'.isDigit = false) : c ≠ c' := by
  rintro rfl; rw [h] at h'; exact absurd h' (by decide)

theorem digit_not_ws {c : Char} (h : c.isDigit = true) : isWS c = false := by
  simp only [isWS, Bool.or_eq_false_iff, beq_eq_false_iff_ne]
  exact ⟨⟨⟨digit_ne h (by decide), digit_ne h (by decide)⟩, digit_ne h (by decide)⟩,
    digit_ne h (by decide)⟩

/-! ## Splitting -/

/-- A word without white space. -/
def Word (w : List Char) : Prop := w ≠ [] ∧ ∀ c ∈ w, isWS c = false

theorem word_show (n : ℕ) : Word (showNat n) :=
  ⟨showNat_ne_nil n, fun _ h => digit_not_ws (showNat_digit h)⟩

theorem splitWS_ws {c : Char} (h : isWS c = true) (t : List Char) : splitWS (c :: t) = splitWS t := by
  rw [splitWS.eq_def]; simp only [h, if_true]

theorem splitWS_word {w : List Char} (hw : Word w) {c : Char} (hc : isWS c = true) (t : List Char) :
    splitWS (w ++ c :: t) = w :: splitWS t := by
  obtain ⟨h0, h⟩ := hw
  induction w with
  | nil => exact absurd rfl h0
  | cons a w ih =>
    have ha : isWS a = false := h a (by simp)
    rw [List.cons_append, splitWS.eq_def]
    simp only [ha, Bool.false_eq_true, if_false]
    cases w with
    | nil => simp only [List.nil_append, hc, if_true, splitWS_ws hc]
    | cons b w =>
      have hb : isWS b = false := h b (by simp)
      have := ih (by simp) fun c hc => h c (by simp [hc])
      simp only [List.cons_append] at this ⊢
      simp only [hb, Bool.false_eq_true, if_false, this]

theorem splitWS_joinTab : ∀ ws : List (List Char), (∀ w ∈ ws, Word w) →
    splitWS (joinTab ws ++ ['\n']) = ws
  | [], _ => rfl
  | [w], h => by rw [joinTab, splitWS_word (h w (by simp)) (by decide)]; rfl
  | w :: w' :: t, h => by
    rw [joinTab, List.append_assoc, List.cons_append, splitWS_word (h w (by simp)) (by decide),
      splitWS_joinTab (w' :: t) fun x hx => h x (by simp [hx])]
    simp

theorem splitChar_free {sep : Char} : ∀ l : List Char, sep ∉ l → splitChar sep l = [l]
  | [], _ => rfl
  | c :: t, h => by
    rw [splitChar, if_neg (by rintro rfl; simp at h), splitChar_free t fun hx => h (by simp [hx])]

theorem splitChar_two {sep : Char} : ∀ l r : List Char, sep ∉ l → sep ∉ r →
    splitChar sep (l ++ sep :: r) = [l, r]
  | [], r, _, hr => by rw [List.nil_append, splitChar, if_pos rfl, splitChar_free r hr]
  | c :: t, r, h, hr => by
    rw [List.cons_append, splitChar, if_neg (by rintro rfl; simp at h),
      splitChar_two t r (fun hx => h (by simp [hx])) hr]

theorem readlines_line : ∀ l t : List Char, '\n' ∉ l → readlines (l ++ '\n' :: t) = (l ++ ['\n']) :: readlines t
  | [], t, _ => by rw [List.nil_append, readlines, if_pos rfl]; rfl
  | c :: l, t, h => by
    rw [List.cons_append, readlines, if_neg (by rintro rfl; simp at h),
      readlines_line l t fun hx => h (by simp [hx])]
    rfl

/-! ## Route lines -/

/-- The characters of a joined line. -/
theorem mem_joinTab {c : Char} : ∀ ws : List (List Char), c ∈ joinTab ws → c = '\t' ∨ ∃ w ∈ ws, c ∈ w
  | [], h => by simp [joinTab] at h
  | [w], h => Or.inr ⟨w, by simp, h⟩
  | w :: w' :: t, h => by
    rw [joinTab.eq_3 _ _ (by simp), List.mem_append, List.mem_cons] at h
    rcases h with h | h | h
    · exact Or.inr ⟨w, by simp, h⟩
    · exact Or.inl h
    · rcases mem_joinTab (w' :: t) h with h | ⟨x, hx, h⟩
      · exact Or.inl h
      · exact Or.inr ⟨x, by simp [hx], h⟩

theorem mem_route {c : Char} {r : List ℕ} (h : c ∈ joinTab (r.map showNat)) :
    c = '\t' ∨ c.isDigit = true := by
  rcases mem_joinTab _ h with h | ⟨w, hw, h⟩
  · exact Or.inl h
  · rw [List.mem_map] at hw
    obtain ⟨n, _, rfl⟩ := hw
    exact Or.inr (showNat_digit h)

theorem digit_lower {c : Char} (h : c.isDigit = true) : c.toLower = c := by
  have := digit_range h
  have h' : ¬ (c.val ≥ 'A'.val ∧ c.val ≤ 'Z'.val) := by
    rintro ⟨h1, h2⟩
    have h3 : 65 ≤ c.toNat := h1
    omega
  unfold Char.toLower
  rw [dif_neg h']

theorem infix_route {r : List ℕ} {ri : ℕ} : ['r', 'o', 'u', 't', 'e'] <:+: (optRouteLine ri r).map Char.toLower := by
  refine ⟨[], ([' ', '#'] ++ showNat (ri + 1) ++ [':', ' '] ++ joinTab (r.map showNat) ++
    ['\n']).map Char.toLower, ?_⟩
  have e : optRouteLine ri r = ['R', 'o', 'u', 't', 'e'] ++ ([' ', '#'] ++ showNat (ri + 1) ++ [':', ' '] ++
    joinTab (r.map showNat) ++ ['\n']) := by
    simp [optRouteLine]
  rw [e, List.map_append (l₁ := ['R', 'o', 'u', 't', 'e'])]
  rfl

/-- The characters of a route line. -/
theorem mem_line {c : Char} {r : List ℕ} {ri : ℕ} (h : c ∈ optRouteLine ri r) :
    c.isDigit = true ∨ c ∈ ['R', 'o', 'u', 't', 'e', ' ', '#', ':', ' ', '\t', '\n'] := by
  unfold optRouteLine at h
  simp only [List.mem_append] at h
  rcases h with (((h | h) | h) | h) | h
  · right; revert h; simp; tauto
  · exact Or.inl (showNat_digit h)
  · right; revert h; simp; tauto
  · rcases mem_route h with h | h
    · right; simp [h]
    · exact Or.inl h
  · right; revert h; simp; tauto

theorem no_cost {r : List ℕ} {ri : ℕ} : ¬ ['c', 'o', 's', 't'] <:+: (optRouteLine ri r).map Char.toLower := by
  intro h
  have hc : 'c' ∈ (optRouteLine ri r).map Char.toLower := h.subset (by decide)
  rw [List.mem_map] at hc
  obtain ⟨c, hc, e⟩ := hc
  rcases mem_line hc with h | h
  · rw [digit_lower h] at e
    exact digit_ne h (by decide) e
  · have : ∀ c ∈ ['R', 'o', 'u', 't', 'e', ' ', '#', ':', ' ', '\t', '\n'], Char.toLower c ≠ 'c' := by decide
    exact this c h e

theorem optLine_route (isFloat : List Char → Bool) (ri : ℕ) (r : List ℕ) (s : List ℕ × Option OptCost) :
    optLine isFloat (optRouteLine ri r) s = .ok (optAppend s.1 r true, s.2) := by
  have e : splitChar ':' (optRouteLine ri r) =
      [['R', 'o', 'u', 't', 'e', ' ', '#'] ++ showNat (ri + 1), ' ' :: (joinTab (r.map showNat) ++ ['\n'])] := by
    have : optRouteLine ri r = (['R', 'o', 'u', 't', 'e', ' ', '#'] ++ showNat (ri + 1)) ++ ':' ::
        (' ' :: (joinTab (r.map showNat) ++ ['\n'])) := by simp [optRouteLine]
    rw [this]
    refine splitChar_two _ _ ?_ ?_
    · rw [List.mem_append]
      rintro (h | h)
      · revert h; decide
      · exact digit_ne (showNat_digit h) (by decide) rfl
    · rw [List.mem_cons, List.mem_append]
      rintro (h | h | h)
      · revert h; decide
      · rcases mem_route h with h | h
        · revert h; decide
        · exact digit_ne h (by decide) rfl
      · revert h; decide
  unfold optLine
  simp only [if_pos infix_route, if_neg no_cost, e]
  rw [splitWS_ws (by decide), splitWS_joinTab _ (by
    intro w hw
    rw [List.mem_map] at hw
    obtain ⟨n, _, rfl⟩ := hw
    exact word_show n), parseNats_show]

theorem no_newline {r : List ℕ} {ri : ℕ} : ∃ l, optRouteLine ri r = l ++ ['\n'] ∧ '\n' ∉ l := by
  refine ⟨['R', 'o', 'u', 't', 'e', ' ', '#'] ++ showNat (ri + 1) ++ [':', ' '] ++ joinTab (r.map showNat), rfl, ?_⟩
  simp only [List.mem_append]
  rintro (((h | h) | h) | h)
  · revert h; decide
  · exact digit_ne (showNat_digit h) (by decide) rfl
  · revert h; decide
  · rcases mem_route h with h | h
    · revert h; decide
    · exact digit_ne h (by decide) rfl

/-- The solution after the routes. -/
theorem optLines_routes (isFloat : List Char → Bool) (rs : List (List ℕ)) (ri : ℕ) (rest : List Char)
    (s : List ℕ × Option OptCost) :
    optLines isFloat (readlines (optRouteLines ri rs ++ rest)) s =
      optLines isFloat (readlines rest) (rs.foldl (fun sol r => optAppend sol r true) s.1, s.2) := by
  induction rs generalizing ri s with
  | nil => rfl
  | cons r t ih =>
    obtain ⟨l, hl, hn⟩ := no_newline (r := r) (ri := ri)
    rw [optRouteLines, hl, List.append_assoc, List.append_assoc, List.singleton_append,
      readlines_line _ _ hn, ← hl, optLines, optLine_route]
    simp only [List.foldl_cons]
    exact ih (ri + 1) _

theorem optAppend_rest : ∀ (r sol : List ℕ), optAppend sol r false = sol ++ r
  | [], sol => by simp [optAppend]
  | a :: t, sol => by simp [optAppend, optAppend_rest t]

theorem optAppend_first {r : List ℕ} (hr : r ≠ []) (sol : List ℕ) : optAppend sol r true =
    (if sol.getLast? = some 0 then sol else sol ++ [0]) ++ r := by
  cases r with
  | nil => exact absurd rfl hr
  | cons a t =>
    rw [optAppend, optAppend_rest]
    by_cases h : sol.getLast? = some 0
    · simp [h]
    · simp [h]

theorem foldl_routes (rs : List (List ℕ)) (hr : ∀ r ∈ rs, r ≠ [] ∧ ∀ x ∈ r, x ≠ 0) {sol : List ℕ}
    (hne : sol ≠ []) (hs : sol.getLast? ≠ some 0) :
    rs.foldl (fun sol r => optAppend sol r true) sol ++ [0] = sol ++ tour rs := by
  induction rs generalizing sol with
  | nil => rfl
  | cons r t ih =>
    obtain ⟨h1, h2⟩ := hr r (by simp)
    rw [List.foldl_cons, optAppend_first h1, if_neg hs, ih (fun x hx => hr x (by simp [hx]))]
    · simp [tour]
    · simp
    · rw [List.getLast?_append_of_ne_nil _ h1, List.getLast?_eq_getLast_of_ne_nil h1]
      intro e
      exact h2 _ (List.getLast_mem h1) (Option.some.inj e)

theorem foldl_routes0 (rs : List (List ℕ)) (hr : ∀ r ∈ rs, r ≠ [] ∧ ∀ x ∈ r, x ≠ 0) :
    (let sol := rs.foldl (fun sol r => optAppend sol r true) [0]
     if 1 < sol.length then sol ++ [0] else sol) = tour rs := by
  cases rs with
  | nil => rfl
  | cons r t =>
    obtain ⟨h1, h2⟩ := hr r (by simp)
    have hp : r.length ≠ 0 := by simpa using h1
    simp only [List.foldl_cons]
    have e0 : optAppend [0] r true = [0] ++ r := by rw [optAppend_first h1, if_pos (by simp)]
    simp only [e0]
    have := foldl_routes t (fun x hx => hr x (by simp [hx])) (sol := [0] ++ r) (by simp) (by
      rw [List.getLast?_append_of_ne_nil _ h1, List.getLast?_eq_getLast_of_ne_nil h1]
      intro e
      exact h2 _ (List.getLast_mem h1) (Option.some.inj e))
    rw [if_pos, this]
    · simp [tour]
    · have h3 := congrArg List.length this
      have h4 : 1 ≤ (tour t).length := by cases t <;> simp [tour]
      simp only [List.length_append, List.length_cons, List.length_nil] at h3 ⊢
      omega

/-! ## C36 -/

/-- A text a number is written as. -/
def Numeric (w : List Char) : Prop := w ≠ [] ∧ ∀ c ∈ w, c.isDigit = true ∨ c = '.' ∨ c = '-'

theorem showInt_numeric (z : ℤ) : Numeric (showInt z) := by
  unfold showInt
  by_cases h : z < 0
  · rw [if_pos h]
    refine ⟨by simp, fun c hc => ?_⟩
    rw [List.mem_cons] at hc
    rcases hc with rfl | hc
    · simp
    · exact Or.inl (showNat_digit hc)
  · rw [if_neg h]
    exact ⟨showNat_ne_nil _, fun c hc => Or.inl (showNat_digit hc)⟩

theorem numeric_word {w : List Char} (h : Numeric w) : Word w :=
  ⟨h.1, fun c hc => by
    rcases h.2 c hc with h | rfl | rfl
    · exact digit_not_ws h
    · decide
    · decide⟩

theorem numeric_line {w : List Char} (h : Numeric w) (pre : List Char) (hp : 'r' ∉ pre.map Char.toLower) :
    ¬ ['r', 'o', 'u', 't', 'e'] <:+: (pre ++ w ++ ['\n']).map Char.toLower := by
  intro hi
  have hc : 'r' ∈ (pre ++ w ++ ['\n']).map Char.toLower := hi.subset (by decide)
  rw [List.map_append, List.map_append, List.mem_append, List.mem_append] at hc
  rcases hc with (hc | hc) | hc
  · exact hp hc
  · rw [List.mem_map] at hc
    obtain ⟨c, hc, e⟩ := hc
    rcases h.2 c hc with h | rfl | rfl
    · rw [digit_lower h] at e
      exact digit_ne h (by decide) e
    · revert e; decide
    · revert e; decide
  · revert hc; decide

/-- C36. Reading back a solution file always fails: the cost line is written as three words but read as
two. `fmt` is the format of a cost that is not an integer. -/
theorem C36_false (isFloat : List Char → Bool) (re_k : Option ℕ) (fmt : ℚ → List Char)
    (hfmt : ∀ q, Numeric (fmt q)) (cost : ℚ) (sol : List ℕ) :
    read_OPT_CVRP isFloat re_k (as_OPT_solution fmt cost sol) = .error .valueError := by
  obtain ⟨w, hw, e⟩ : ∃ w, Numeric w ∧ as_OPT_solution fmt cost sol =
      optRouteLines 0 (optFileRoutes sol) ++ (['C', 'o', 's', 't', ' ', ':', ' '] ++ w ++ ['\n']) := by
    refine ⟨if cost.den = 1 then showInt cost.num else fmt cost, ?_, by simp [as_OPT_solution]⟩
    by_cases h : cost.den = 1
    · rw [if_pos h]; exact showInt_numeric _
    · rw [if_neg h]; exact hfmt _
  have hn : '\n' ∉ ['C', 'o', 's', 't', ' ', ':', ' '] ++ w := by
    rw [List.mem_append]
    rintro (h | h)
    · revert h; decide
    · have := (numeric_word hw).2 _ h
      revert this; decide
  have h1 : optLine isFloat (['C', 'o', 's', 't', ' ', ':', ' '] ++ w ++ ['\n'])
      ((optFileRoutes sol).foldl (fun sol r => optAppend sol r true) [0], none) = .error .valueError := by
    unfold optLine
    simp only [if_neg (numeric_line hw ['C', 'o', 's', 't', ' ', ':', ' '] (by decide))]
    rw [if_pos ⟨[], ([' ', ':', ' '] ++ w ++ ['\n']).map Char.toLower, by
      simp only [List.map_append]; rfl⟩]
    have e2 : splitWS (['C', 'o', 's', 't', ' ', ':', ' '] ++ w ++ ['\n']) = [['C', 'o', 's', 't'], [':'], w] := by
      have : ['C', 'o', 's', 't', ' ', ':', ' '] ++ w ++ ['\n'] = ['C', 'o', 's', 't'] ++ ' ' :: ([':'] ++ ' ' ::
        (w ++ '\n' :: [])) := by simp
      rw [this, splitWS_word ⟨by decide, by decide⟩ (by decide),
        splitWS_word ⟨by decide, by decide⟩ (by decide), splitWS_word (numeric_word hw) (by decide)]
      rfl
    rw [e2]
  rw [read_OPT_CVRP, e, optLines_routes]
  rw [show ['C', 'o', 's', 't', ' ', ':', ' '] ++ w ++ ['\n'] = ['C', 'o', 's', 't', ' ', ':', ' '] ++ w ++ '\n' :: [] from rfl,
    readlines_line _ _ hn, optLines, h1]

/-- C36. The routes are read back as the solution without empty routes, and the cost if its line has two
words as the reader expects. The number of routes is only that of the file name, the routes of the file
are never counted. Missing for the full claim: the writer's own cost line, see `C36_false`, and the
number of routes. -/
theorem C36_partial (isFloat : List Char → Bool) (re_k : Option ℕ) {sol : List ℕ} (hs : DepotEnds sol)
    (c : ℕ) :
    read_OPT_CVRP isFloat re_k (optRouteLines 0 (optFileRoutes sol) ++
      (['C', 'o', 's', 't', ' '] ++ showNat c ++ ['\n'])) = .ok (squeeze sol, some (.int c), re_k.getD 0) := by
  have hw : Numeric (showNat c) := ⟨showNat_ne_nil c, fun x hx => Or.inl (showNat_digit hx)⟩
  have hn : '\n' ∉ ['C', 'o', 's', 't', ' '] ++ showNat c := by
    rw [List.mem_append]
    rintro (h | h)
    · revert h; decide
    · exact digit_ne (showNat_digit h) (by decide) rfl
  have h1 : ∀ s : List ℕ, optLine isFloat (['C', 'o', 's', 't', ' '] ++ showNat c ++ ['\n']) (s, none) =
      .ok (s, some (.int c)) := by
    intro s
    unfold optLine
    simp only [if_neg (numeric_line hw ['C', 'o', 's', 't', ' '] (by decide))]
    rw [if_pos ⟨[], ([' '] ++ showNat c ++ ['\n']).map Char.toLower, by
      simp only [List.map_append]; rfl⟩]
    have e2 : splitWS (['C', 'o', 's', 't', ' '] ++ showNat c ++ ['\n']) = [['C', 'o', 's', 't'], showNat c] := by
      have : ['C', 'o', 's', 't', ' '] ++ showNat c ++ ['\n'] = ['C', 'o', 's', 't'] ++ ' ' ::
        (showNat c ++ '\n' :: []) := by simp
      rw [this, splitWS_word ⟨by decide, by decide⟩ (by decide),
        splitWS_word (numeric_word hw) (by decide)]
      rfl
    rw [e2]
    simp only [parseNat_showNat]
  have hb : ∀ r ∈ blocks sol, r ≠ [] ∧ ∀ x ∈ r, x ≠ 0 := fun r hr => mem_blocks _ r hr
  have h2 := foldl_routes0 (blocks sol) hb
  rw [read_OPT_CVRP, optLines_routes]
  rw [show ['C', 'o', 's', 't', ' '] ++ showNat c ++ ['\n'] = ['C', 'o', 's', 't', ' '] ++ showNat c ++ '\n' :: [] from rfl,
    readlines_line _ _ hn, optLines, h1]
  simp only [readlines, optLines, optFileRoutes_eq]
  simp only at h2
  rw [h2, squeeze_depotEnds hs]

/-- C36. The number of routes of a solution file is never that of its routes, unless the file name tells
it: a file with two routes is read as one with none. -/
theorem C36_count_false :
    read_OPT_CVRP (fun _ => false) none (optRouteLines 0 [[1, 2], [3]]) = .ok ([0, 1, 2, 0, 3, 0], none, 0) := by
  decide +kernel

example : Numeric ['1', '2', '.', '5', '0'] := ⟨by decide, by decide⟩
example : DepotEnds [0, 1, 2, 0, 0, 13, 0] ∧ squeeze [0, 1, 2, 0, 0, 13, 0] = [0, 1, 2, 0, 13, 0] := by
  decide
example : String.ofList (optRouteLines 0 (optFileRoutes [0, 1, 2, 0, 0, 13, 0])) =
    "Route #1: 1\t2\nRoute #2: 13\n" := by decide +kernel

end Verif
