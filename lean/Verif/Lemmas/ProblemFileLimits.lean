import Verif.Lemmas.ProblemFileRead
import Verif.Lemmas.InterRoute
import Verif.Props.Tsplib

/-! # The additional constraints of a file that was written, and other lemmas on problem files -/

namespace Verif

open Spec

theorem isVrp_iff {path : List Char} : wCvrp path = true ↔ IsVrp path := by
  unfold wCvrp
  rw [decide_eq_true_eq]
  constructor
  · intro h
    exact ⟨path.take (path.length - 4), _, (List.take_append_drop _ _).symm, h⟩
  · rintro ⟨q, e, rfl, he⟩
    have hl : e.length = 4 := by
      have := congrArg List.length he
      rw [List.length_map] at this
      exact this
    rw [List.length_append, hl, Nat.add_sub_cancel, List.drop_left]
    exact he

theorem nodes_eq {selected : List ℕ} {n : ℕ} {sel : List ℕ} (h : Nodes selected n sel) :
    sel = if selected = [] then pyRange 0 n else selected := by
  rcases h with ⟨h, rfl⟩ | ⟨h, rfl⟩
  · rw [if_neg h]
  · rw [if_pos h]
    simp [pyRange, List.range_eq_range']

theorem isWhole_pyInt (x : ℚ) : IsWhole x (pyInt x) := by
  refine ⟨(trunc_spec x).1, ?_⟩
  unfold pyInt
  have hd : (0 : ℚ) < x.den := by exact_mod_cast x.den_pos
  have h2 : x * x.den = x.num := Rat.mul_den_eq_num x
  have h : |x.num.tdiv x.den| * x.den ≤ |x.num| := by
    have := Int.natAbs_tdiv_le_natAbs
    have h3 : (x.num.tdiv x.den).natAbs * x.den ≤ x.num.natAbs := by
      rw [Int.natAbs_tdiv, Int.natAbs_natCast]
      exact Nat.div_mul_le_self _ _
    rw [Int.abs_eq_natAbs, Int.abs_eq_natAbs]
    exact_mod_cast h3
  have h4 : (|x.num.tdiv x.den| : ℚ) * x.den ≤ |(x.num : ℚ)| := by exact_mod_cast h
  rw [← h2, abs_mul, abs_of_pos hd] at h4
  exact le_of_mul_le_mul_right h4 hd

theorem isWhole_unique {x : ℚ} {y z : ℤ} (hy : IsWhole x y) (hz : IsWhole x z) : y = z := by
  obtain ⟨h1, h2⟩ := hy
  obtain ⟨h3, h4⟩ := hz
  have key : ∀ w : ℤ, |x - w| < 1 → |(w : ℚ)| ≤ |x| → (0 ≤ x → (w : ℚ) ≤ x ∧ x < w + 1) ∧ (x ≤ 0 → x ≤ w ∧ (w : ℚ) - 1 < x) := by
    intro w h h'
    rw [abs_lt] at h
    refine ⟨fun hx => ?_, fun hx => ?_⟩
    · rw [abs_of_nonneg hx] at h'
      exact ⟨(le_abs_self _).trans h', by linarith⟩
    · rw [abs_of_nonpos hx] at h'
      exact ⟨by have := (neg_le_abs (w : ℚ)).trans h'; linarith, by linarith⟩
  rcases le_total 0 x with hx | hx
  · obtain ⟨a, b⟩ := (key y h1 h2).1 hx
    obtain ⟨c, e⟩ := (key z h3 h4).1 hx
    have u : y < z + 1 := by exact_mod_cast (by linarith : (y : ℚ) < z + 1)
    have v : z < y + 1 := by exact_mod_cast (by linarith : (z : ℚ) < y + 1)
    omega
  · obtain ⟨a, b⟩ := (key y h1 h2).2 hx
    obtain ⟨c, e⟩ := (key z h3 h4).2 hx
    have u : y - 1 < z := by exact_mod_cast (by linarith : (y : ℚ) - 1 < z)
    have v : z - 1 < y := by exact_mod_cast (by linarith : (z : ℚ) - 1 < y)
    omega

/-! ## The limits -/

/-- No field of the additional constraints is on the line. -/
def quiet (l : List Char) : Bool :=
  !occurs "DISTANCE".toList l && !occurs "SERVICE_TIME".toList l && !occurs "VEHICLES".toList l && !occurs "SVC_TIME_SECTION".toList l

theorem addLine_quiet {float : List Char → Py ℚ} {l : List Char} {s : AddSt} (h : quiet l = true) (hs : s.svc = false) :
    addLine float l s = .ok s := by
  unfold quiet at h
  simp only [Bool.and_eq_true, Bool.not_eq_true'] at h
  obtain ⟨⟨⟨h1, h2⟩, h3⟩, h4⟩ := h
  unfold addLine
  rw [hs]
  simp only [Bool.false_eq_true, if_false, addFields, h1, h2, h3, h4, Bool.or_false]

theorem addLoop_quiet {float : List Char → Py ℚ} {t : List (List Char)} : ∀ (ls : List (List Char)) {s : AddSt},
    (∀ l ∈ ls, quiet l = true) → s.svc = false → addLoop float (ls ++ t) s = addLoop float t s
  | [], _, _, _ => rfl
  | l :: ls, s, h, hs => by
    rw [List.cons_append, addLoop, addLine_quiet (h l (by simp)) hs]
    exact addLoop_quiet ls (fun x hx => h x (List.mem_cons_of_mem _ hx)) hs

/-- A line without the letter T and without the letter V. -/
theorem quiet_chars {l : List Char} (h1 : 'D' ∉ l ∨ 'T' ∉ l) (h2 : 'R' ∉ l) (h3 : 'V' ∉ l) : quiet l = true := by
  unfold quiet
  rw [not_occurs (c := 'R') (sub := "SERVICE_TIME".toList) (by decide) h2, not_occurs (c := 'V') (sub := "VEHICLES".toList) (by decide) h3,
    not_occurs (c := 'V') (sub := "SVC_TIME_SECTION".toList) (by decide) h3]
  rcases h1 with h1 | h1
  · rw [not_occurs (c := 'D') (sub := "DISTANCE".toList) (by decide) h1]; rfl
  · rw [not_occurs (c := 'T') (sub := "DISTANCE".toList) (by decide) h1]; rfl

theorem quiet_plain {l : List Char} (h : ∀ c ∈ l, c.isUpper = false) : quiet l = true :=
  quiet_chars (.inl fun h' => absurd (h _ h') (by decide)) (fun h' => absurd (h _ h') (by decide))
    (fun h' => absurd (h _ h') (by decide))

theorem pairLine_quiet (e : ℕ × ℤ) : quiet (wPairLine e ++ ['\n']) = true := by
  refine quiet_plain fun c hc => ?_
  unfold wPairLine at hc
  simp only [List.mem_append, List.mem_singleton] at hc
  rcases hc with ((hc | rfl) | hc) | rfl
  · have h1 := showNat_digit hc
    have : c ∈ showInt (e.1 : ℤ) := by
      unfold showInt
      rw [if_neg (by omega)]
      simpa using hc
    exact (showInt_all this).1
  · decide
  · exact (showInt_all hc).1
  · decide

theorem rowLines_quiet {float : List Char → Py ℚ} {fmt : ℚ → List Char} {precision : Option ℚ} {D : ℕ → ℕ → ℚ} : ∀ (sel : List ℕ),
    (∀ i ∈ sel, ∀ j ∈ sel, TokenOk float fmt precision (D i j)) →
    ∀ l ∈ wRowLines fmt precision D sel, quiet (l ++ ['\n']) = true
  | [], _, l, hl => by cases hl
  | [_], _, l, hl => by cases hl
  | i :: j :: t, h, l, hl => by
    rw [wRowLines] at hl
    rcases List.mem_cons.1 hl with rfl | hl
    · refine quiet_plain fun c hm => ?_
      rcases List.mem_append.1 hm with hm | hm
      · obtain ⟨k, hk, hm⟩ := List.mem_flatMap.1 hm
        rcases List.mem_append.1 hm with hm | hm
        · exact ((h i (by simp) k (List.mem_cons_of_mem _ hk)).plain _ hm).1
        · rw [List.mem_singleton.1 hm]; decide
      · rw [List.mem_singleton.1 hm]; decide
    · exact rowLines_quiet (j :: t) (fun a ha b hb => h a (List.mem_cons_of_mem _ ha) b (List.mem_cons_of_mem _ hb)) l hl

theorem quiet_capacity (z : ℤ) : quiet ("CAPACITY".toList ++ ':' :: ' ' :: showInt z ++ ['\n']) = true := by
  have hz : ∀ c : Char, c.isUpper = true → c ∉ showInt z := fun c hc hm => by
    have := (showInt_all hm).1
    rw [hc] at this
    cases this
  refine quiet_chars (.inl ?_) ?_ ?_ <;>
  · simp only [List.mem_append, List.mem_cons, List.not_mem_nil, or_false, not_or]
    exact ⟨⟨by decide, by decide, by decide, hz _ (by decide)⟩, by decide⟩

theorem quiet_dimension (k : ℕ) : quiet ("DIMENSION".toList ++ ':' :: ' ' :: showNat k ++ ['\n']) = true := by
  have hz : ∀ c : Char, c.isUpper = true → c ∉ showNat k := fun c hc hm => by
    have h' : c ∈ showInt (k : ℤ) := by
      unfold showInt
      rw [if_neg (by omega)]
      simpa using hm
    have := (showInt_all h').1
    rw [hc] at this
    cases this
  refine quiet_chars (.inr ?_) ?_ ?_ <;>
  · simp only [List.mem_append, List.mem_cons, List.not_mem_nil, or_false, not_or]
    exact ⟨⟨by decide, by decide, by decide, hz _ (by decide)⟩, by decide⟩

theorem addLine_distance {float : List Char → Py ℚ} (z : ℤ) {s : AddSt} (hs : s.svc = false) :
    addLine float ("DISTANCE".toList ++ ':' :: ' ' :: showInt z ++ ['\n']) s = .ok { s with L := some z } := by
  have hz : ∀ c : Char, c.isUpper = true → c ∉ showInt z := fun c hc hm => by
    have := (showInt_all hm).1
    rw [hc] at this
    cases this
  have hp : '.' ∉ showInt z := by
    unfold showInt
    split_ifs
    · intro h
      rcases List.mem_cons.1 h with h | h
      · exact absurd h (by decide)
      · exact absurd (showNat_digit h) (by decide)
    · exact fun h => absurd (showNat_digit h) (by decide)
  have hn : ∀ c : Char, c ∉ "DISTANCE".toList → c ≠ ':' → c ≠ ' ' → c ≠ '\n' → c ∉ showInt z →
      c ∉ "DISTANCE".toList ++ ':' :: ' ' :: showInt z ++ ['\n'] := by
    intro c h1 h2 h3 h4 h5
    simp only [List.mem_append, List.mem_cons, List.not_mem_nil, or_false, not_or]
    exact ⟨⟨h1, h2, h3, h5⟩, h4⟩
  have o1 : occurs "DISTANCE".toList ("DISTANCE".toList ++ ':' :: ' ' :: showInt z ++ ['\n']) = true := by
    have : "DISTANCE".toList ++ ':' :: ' ' :: showInt z ++ ['\n'] = 'D' :: ("ISTANCE".toList ++ ':' :: ' ' :: showInt z ++ ['\n']) := rfl
    rw [this, occurs, ← this, Bool.or_eq_true]
    left
    rw [List.append_assoc]
    exact List.isPrefixOf_iff_prefix.2 (List.prefix_append _ _)
  have o2 : occurs "SERVICE_TIME".toList ("DISTANCE".toList ++ ':' :: ' ' :: showInt z ++ ['\n']) = false :=
    not_occurs (c := 'R') (by decide) (hn _ (by decide) (by decide) (by decide) (by decide) (hz _ (by decide)))
  have o3 : occurs "VEHICLES".toList ("DISTANCE".toList ++ ':' :: ' ' :: showInt z ++ ['\n']) = false :=
    not_occurs (c := 'V') (by decide) (hn _ (by decide) (by decide) (by decide) (by decide) (hz _ (by decide)))
  have o4 : occurs "SVC_TIME_SECTION".toList ("DISTANCE".toList ++ ':' :: ' ' :: showInt z ++ ['\n']) = false :=
    not_occurs (c := 'V') (by decide) (hn _ (by decide) (by decide) (by decide) (by decide) (hz _ (by decide)))
  have hw : splitWS ("DISTANCE".toList ++ ':' :: ' ' :: showInt z ++ ['\n']) = ["DISTANCE:".toList, showInt z] := by
    have e : "DISTANCE".toList ++ ':' :: ' ' :: showInt z ++ ['\n'] = "DISTANCE:".toList ++ ' ' :: (showInt z ++ '\n' :: []) := by
      simp
    rw [e, splitWS_word ⟨by decide, by decide⟩ (by decide), splitWS_word (word_showInt z) (by decide)]
    rfl
  have hlast : addLast float ("DISTANCE".toList ++ ':' :: ' ' :: showInt z ++ ['\n']) = .ok (z : ℚ) := by
    unfold addLast lastWord
    rw [hw]
    show addNumber _ _ (showInt z) = _
    unfold addNumber
    rw [if_neg (hn _ (by decide) (by decide) (by decide) (by decide) hp), parseInt_showInt]
    rfl
  unfold addLine
  rw [hs]
  simp only [Bool.false_eq_true, if_false, addFields, o1, o2, o3, o4, hlast, if_true, Bool.or_false]
  show Except.ok (AddSt.mk s.K (some (z : ℚ)) s.ST s.svc) = _
  rw [hs]

theorem limits_written {float : List Char → Py ℚ} {fmt : ℚ → List Char} {precision : Option ℚ} {D : ℕ → ℕ → ℚ} {path : List Char}
    {n : ℕ} {d : Option (List ℚ)} {C L : Option ℚ} {selected sel : List ℕ}
    (hsel : sel = if selected = [] then pyRange 0 n else selected)
    (h : ∀ i ∈ sel, ∀ j ∈ sel, TokenOk float fmt precision (D i j)) :
    read_TSBLIB_additional_constraints float (write_TSPLIB_file fmt path n D d C L selected precision) =
      .ok (none, if wCvrp path = true ∧ truthy L = true then some ((pyInt (L.getD 0) : ℤ) : ℚ) else none, none) := by
  have hq : ∀ (A : List (List Char)), (∀ l ∈ A, quiet l = true) → ∀ (ls : List (List Char)) (s : AddSt), s.svc = false →
      addLoop float (A ++ ls) s = addLoop float ls s := fun A hA ls s hs => addLoop_quiet A hA hs
  unfold read_TSBLIB_additional_constraints
  rw [kinds_written hsel h]
  have hrest : ∀ s : AddSt, s.svc = false → addLoop float ((["COMMENT: temporary CVRP or TSP problem".toList,
      "DIMENSION".toList ++ ':' :: ' ' :: showNat sel.length,
      "EDGE_WEIGHT_TYPE: EXPLICIT".toList, "EDGE_WEIGHT_FORMAT: UPPER_ROW".toList, "EDGE_WEIGHT_SECTION".toList] ++
      (wRowLines fmt precision D sel ++ (if wCvrp path then ["DEMAND_SECTION".toList] ++ (wPairs n d).map wPairLine ++
        ["DEPOT_SECTION".toList, ['1'], ['-', '1']] else []))).map (fun l => l ++ ['\n']) ++ ["EOF".toList]) s = .ok s := by
    intro s hs
    refine (congrArg (fun x => addLoop float x s) (List.append_nil _).symm).trans ((hq _ ?_ _ _ hs).trans rfl)
    · intro l hl
      rcases List.mem_append.1 hl with hl | hl
      · obtain ⟨k, hk, rfl⟩ := List.mem_map.1 hl
        clear hl
        simp only [List.mem_append, List.mem_cons, List.not_mem_nil, or_false] at hk
        rcases hk with (rfl | rfl | rfl | rfl | rfl) | hl | hl
        · decide +kernel
        · exact quiet_dimension _
        · decide +kernel
        · decide +kernel
        · decide +kernel
        · exact rowLines_quiet sel h k hl
        · split_ifs at hl
          · simp only [List.mem_append, List.mem_cons, List.not_mem_nil, or_false] at hl
            rcases hl with (rfl | hl) | rfl | rfl | rfl
            · decide +kernel
            · obtain ⟨e, -, rfl⟩ := List.mem_map.1 hl
              exact pairLine_quiet e
            · decide +kernel
            · decide +kernel
            · decide +kernel
          · cases hl
      · rw [List.mem_singleton.1 hl]; decide +kernel
  unfold wFileLines
  rw [List.append_assoc, List.append_assoc, List.append_assoc, List.map_append, List.append_assoc, hq _ _ _ _ rfl]
  rotate_left
  · intro l hl
    rw [List.mem_singleton.1 (by simpa using hl : l ∈ ["NAME: temporary".toList ++ ['\n']])]; decide +kernel
  rw [List.map_append, List.append_assoc]
  cases hc : wCvrp path with
  | false =>
    rw [hc] at hrest
    simp only [Bool.false_eq_true, if_false] at hrest
    simp only [Bool.false_eq_true, if_false, false_and]
    rw [hq _ (by intro l hl; rw [List.mem_singleton.1 (by simpa using hl : l ∈ ["TYPE: TSP".toList ++ ['\n']])]; decide +kernel) _ _ rfl,
      hrest _ rfl]
    rfl
  | true =>
    rw [hc] at hrest
    simp only [if_true] at hrest
    simp only [if_true, true_and]
    rw [List.map_append, List.append_assoc, hq _ _ _ _ rfl]
    rotate_left
    · intro l hl
      simp only [List.map_cons, List.map_nil, List.mem_cons, List.not_mem_nil, or_false] at hl
      rcases hl with rfl | rfl
      · decide +kernel
      · exact quiet_capacity _
    by_cases hL : truthy L = true
    · rw [if_pos hL, if_pos hL, List.map_cons, List.map_nil, List.cons_append, List.nil_append, addLoop, addLine_distance _ rfl]
      dsimp only
      rw [hrest _ rfl]
      rfl
    · rw [if_neg hL, if_neg hL, List.map_nil, List.nil_append, hrest _ rfl]
      rfl

end Verif
