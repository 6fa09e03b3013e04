import Verif.Lemmas.ProblemFileLoop

/-! # What the reader of problem files makes of a file that was written -/

namespace Verif

open Spec

/-! ## What is written is read -/

theorem pairLine_free (e : ℕ × ℤ) : '\n' ∉ wPairLine e := by
  intro h
  rcases List.mem_append.1 h with h | h
  · rcases List.mem_append.1 h with h | h
    · exact absurd (showNat_digit h) (by decide)
    · exact absurd (List.mem_singleton.1 h) (by decide)
  · exact (showInt_all h).2.2 (by decide)

theorem rowLines_free {float : List Char → Py ℚ} {fmt : ℚ → List Char} {precision : Option ℚ} {D : ℕ → ℕ → ℚ} : ∀ (sel : List ℕ),
    (∀ i ∈ sel, ∀ j ∈ sel, TokenOk float fmt precision (D i j)) → ∀ l ∈ wRowLines fmt precision D sel, '\n' ∉ l
  | [], _, l, hl => by cases hl
  | [_], _, l, hl => by cases hl
  | i :: j :: t, h, l, hl => by
    rw [wRowLines] at hl
    rcases List.mem_cons.1 hl with rfl | hl
    · intro hm
      obtain ⟨k, hk, hm⟩ := List.mem_flatMap.1 hm
      rcases List.mem_append.1 hm with hm | hm
      · exact ((h i (by simp) k (List.mem_cons_of_mem _ hk)).plain _ hm).2.2 (by decide)
      · exact absurd (List.mem_singleton.1 hm) (by decide)
    · exact rowLines_free (j :: t) (fun a ha b hb => h a (List.mem_cons_of_mem _ ha) b (List.mem_cons_of_mem _ hb)) l hl

theorem fileLines_free {float : List Char → Py ℚ} {fmt : ℚ → List Char} {precision : Option ℚ} {D : ℕ → ℕ → ℚ} {cvrp : Bool}
    {n : ℕ} {d : Option (List ℚ)} {C L : Option ℚ} {sel : List ℕ}
    (h : ∀ i ∈ sel, ∀ j ∈ sel, TokenOk float fmt precision (D i j)) :
    ∀ l ∈ wFileLines fmt cvrp n D d C L sel precision, '\n' ∉ l := by
  have hn : ∀ (name : List Char) (w : List Char), '\n' ∉ name → '\n' ∉ w → '\n' ∉ name ++ ':' :: ' ' :: w := by
    intro name w h1 h2 h3
    simp only [List.mem_append, List.mem_cons] at h3
    rcases h3 with h3 | h3 | h3 | h3
    · exact h1 h3
    · exact absurd h3 (by decide)
    · exact absurd h3 (by decide)
    · exact h2 h3
  have hi : ∀ z : ℤ, '\n' ∉ showInt z := fun z hm => (showInt_all hm).2.2 (by decide)
  have hs : ∀ k : ℕ, '\n' ∉ showNat k := fun k hm => absurd (showNat_digit hm) (by decide)
  intro l hl
  unfold wFileLines at hl
  simp only [List.mem_append] at hl
  rcases hl with (((hl | hl) | hl) | hl) | hl
  · rw [List.mem_singleton.1 hl]; decide
  · split_ifs at hl <;> simp only [List.append_nil, List.cons_append, List.nil_append, List.mem_cons, List.not_mem_nil, or_false] at hl
    · rcases hl with rfl | rfl | rfl
      · decide
      · exact hn _ _ (by decide) (hi _)
      · exact hn _ _ (by decide) (hi _)
    · rcases hl with rfl | rfl
      · decide
      · exact hn _ _ (by decide) (hi _)
    · rcases hl with rfl | rfl | rfl
      · decide
      · exact hn _ _ (by decide) (hi _)
      · exact hn _ _ (by decide) (hi _)
    · rcases hl with rfl | rfl
      · decide
      · exact hn _ _ (by decide) (hi _)
    · rw [hl]; decide
  · simp only [List.mem_cons, List.not_mem_nil, or_false] at hl
    rcases hl with rfl | rfl | rfl | rfl | rfl
    · decide
    · exact hn _ _ (by decide) (hs _)
    · decide
    · decide
    · decide
  · exact rowLines_free sel h l hl
  · split_ifs at hl
    · simp only [List.mem_append, List.mem_cons, List.not_mem_nil, or_false] at hl
      rcases hl with (rfl | hl) | rfl | rfl | rfl
      · decide
      · obtain ⟨e, -, rfl⟩ := List.mem_map.1 hl
        exact pairLine_free e
      · decide
      · decide
      · decide
    · cases hl

/-- The lines of the file that is written. -/
theorem kinds_written {float : List Char → Py ℚ} {fmt : ℚ → List Char} {precision : Option ℚ} {D : ℕ → ℕ → ℚ} {path : List Char}
    {n : ℕ} {d : Option (List ℚ)} {C L : Option ℚ} {selected sel : List ℕ}
    (hsel : sel = if selected = [] then pyRange 0 n else selected)
    (h : ∀ i ∈ sel, ∀ j ∈ sel, TokenOk float fmt precision (D i j)) :
    readlines (write_TSPLIB_file fmt path n D d C L selected precision) =
      (wFileLines fmt (wCvrp path) n D d C L sel precision).map (fun l => l ++ ['\n']) ++ ["EOF".toList] := by
  rw [write_lines, ← hsel, readlines_text _ (fileLines_free h)]
  rfl

theorem wOut_eq (n : ℕ) (D : ℕ → ℕ → ℚ) (selected sel : List ℕ) (precision : Option ℚ)
    (hsel : sel = if selected = [] then pyRange 0 n else selected) :
    writeExplicit.rows D (wOut precision) sel = writeExplicit n D selected precision := by
  rw [hsel]
  rfl

/-- The state after the matrix. -/
theorem tsLoop_written {env : TsEnv} {fmt : ℚ → List Char} {precision : Option ℚ} {D D' : ℕ → ℕ → ℚ} {cvrp : Bool}
    {n : ℕ} {d : Option (List ℚ)} {C L : Option ℚ} {sel : List ℕ} {p : ℕ × ℕ}
    (h : ∀ i ∈ sel, ∀ j ∈ sel, TokenOk env.float fmt precision (D i j))
    (hr : readWeights .upperRow sel.length (writeExplicit.rows D (wOut precision) sel) (1, 0) (fun _ _ => 0) = .ok (p, D')) :
    tsLoop env (((wFileLines fmt cvrp n D d C L sel precision).map (fun l => l ++ ['\n']) ++ ["EOF".toList]).map tsKind) tsStart =
      tsLoop env (((if cvrp then ["DEMAND_SECTION".toList] ++ (wPairs n d).map wPairLine ++
          ["DEPOT_SECTION".toList, ['1'], ['-', '1']] else []).map fun l => tsKind (l ++ ['\n'])) ++ [.eof])
        { tsHeadSt sel.length (if cvrp then some (if truthy C then pyInt (C.getD 0) else n) else none) with
          ij := p, D := some (sel.length, D') } := by
  unfold wFileLines
  rw [List.map_append, List.map_map]
  have k0 : List.map tsKind ["EOF".toList] = [.eof] := by decide +kernel
  rw [k0, List.map_append, List.map_append, List.append_assoc, List.append_assoc]
  have hh := tsLoop_head (env := env) cvrp (if truthy C then pyInt (C.getD 0) else n) L sel.length
  simp only [Function.comp_def]
  rw [hh]
  exact tsLoop_rows sel h (s := tsHeadSt sel.length _) rfl rfl
    (show ewFormat (some "UPPER_ROW".toList) = .upperRow by decide +kernel) hr

/-- What is read after the demands. -/
theorem tsLoop_depots {env : TsEnv} {s : TsSt} (hs : s.depots = []) :
    tsLoop env ((["DEPOT_SECTION".toList, ['1'], ['-', '1']].map fun l => tsKind (l ++ ['\n'])) ++ [.eof]) s =
      .ok { s with sec := .depots, pos := 0, depots := [1] } := by
  have k1 : tsKind ("DEPOT_SECTION".toList ++ ['\n']) = .head .depots := by decide +kernel
  have k2 : tsKind (['1'] ++ ['\n']) = .data ['1'] := by decide +kernel
  have k3 : tsKind (['-', '1'] ++ ['\n']) = .data ['-', '1'] := by decide +kernel
  have p1 : parseInt ['1'] = .ok 1 := by decide +kernel
  have p2 : parseInt ['-', '1'] = .ok (-1) := by decide +kernel
  simp only [List.map_cons, List.map_nil, k1, k2, k3, List.cons_append, List.nil_append]
  rw [tsLoop_step (s' := { s with sec := .depots, pos := 0 }) (by rfl)]
  rw [tsLoop_step (s' := { s with sec := .depots, pos := 0, depots := [1] }) (by
    simp only [tsLine, tsData, p1, hs]; rfl)]
  rw [tsLoop_step (s' := { s with sec := .depots, pos := 0, depots := [1] }) (by
    simp only [tsLine, tsData, p2]; rfl)]
  rfl

theorem read_written {env : TsEnv} {fmt : ℚ → List Char} {precision : Option ℚ} {D D' : ℕ → ℕ → ℚ} {path : List Char}
    {n : ℕ} {d : Option (List ℚ)} {C L : Option ℚ} {selected sel : List ℕ}
    (hsel : sel = if selected = [] then pyRange 0 n else selected)
    (hf : ∀ z : ℤ, env.float (showInt z) = .ok z)
    (h : ∀ i ∈ sel, ∀ j ∈ sel, TokenOk env.float fmt precision (D i j))
    (hr : readExplicit .upperRow sel.length (writeExplicit n D selected precision) = .ok D')
    (hlen : wCvrp path = true → (wPairs n d).length = sel.length) :
    read_TSPLIB_CVRP env (write_TSPLIB_file fmt path n D d C L selected precision) =
      .ok ⟨(sel.length : ℤ) - 1, none, none, if wCvrp path then some ((wPairs n d).map fun e => some (e.2 : ℚ)) else none,
        some (sel.length, D'), if wCvrp path then some (if truthy C then pyInt (C.getD 0) else n) else none,
        some "EXPLICIT".toList⟩ := by
  unfold readExplicit at hr
  cases hw : readWeights .upperRow sel.length (writeExplicit n D selected precision) (ijStart .upperRow) (fun _ _ => 0) with
  | error e => rw [hw] at hr; cases hr
  | ok q =>
    obtain ⟨p, D1⟩ := q
    rw [hw] at hr
    dsimp only at hr
    by_cases hc : ijComplete .upperRow sel.length p = true
    · rw [if_pos hc] at hr
      obtain rfl : D1 = D' := by injection hr
      have ew : ewFormat (some "UPPER_ROW".toList) = .upperRow := by decide +kernel
      have hfin : ∀ (s : TsSt), s.ewt = some "EXPLICIT".toList → s.ewf = some "UPPER_ROW".toList → s.D = some (sel.length, D1) →
          s.ij = p → s.upd = false → ¬ (1 < s.depots.headD 0) →
          tsFinish env s = .ok ⟨s.N, s.points, s.dd, s.demands, s.D, s.C, s.ewt⟩ := by
        intro s e1 e2 e3 e4 e5 e6
        unfold tsFinish tsCheck
        rw [if_pos e1, e3]
        dsimp only
        rw [e2, ew, e4, if_pos hc]
        dsimp only
        rw [if_neg (by rw [e5]; simp)]
        dsimp only
        rw [if_neg e6]
        dsimp only
        rw [if_neg (by rw [e1]; decide +kernel), e1]
      unfold read_TSPLIB_CVRP
      rw [kinds_written hsel h, tsLoop_written h (by rw [wOut_eq n D selected sel precision hsel]; exact hw)]
      cases hcv : wCvrp path with
      | false =>
        simp only [Bool.false_eq_true, if_false, List.map_nil, List.nil_append]
        have : tsLoop env [.eof] { tsHeadSt sel.length none with ij := p, D := some (sel.length, D1) } =
          .ok { tsHeadSt sel.length none with ij := p, D := some (sel.length, D1) } := rfl
        rw [this]
        dsimp only
        rw [hfin _ rfl rfl rfl rfl rfl (show ¬ (1 : ℤ) < ([] : List ℤ).headD 0 by decide)]
        rfl
      | true =>
        simp only [if_true]
        rw [List.map_append, List.map_append, List.append_assoc, List.append_assoc, List.map_map]
        have k1 : tsKind ("DEMAND_SECTION".toList ++ ['\n']) = .head .demands := by decide +kernel
        rw [List.map_cons, k1, List.map_nil, List.singleton_append]
        generalize (if truthy C then pyInt (C.getD 0) else (n : ℤ)) = c
        rw [tsLoop_step (s' := { tsHeadSt sel.length (some c) with ij := p, D := some (sel.length, D1), sec := .demands, pos := 0, demands := some ([] ++ List.replicate sel.length none) }) (by
            simp only [tsLine, tsSetSection, tsHeadSt, Int.sub_add_cancel, Int.toNat_natCast]; rfl)]
        simp only [Function.comp_def]
        have hp := tsLoop_pairs (env := env) hf (rest := (["DEPOT_SECTION".toList, ['1'], ['-', '1']].map
            fun l => tsKind (l ++ ['\n'])) ++ [.eof]) (wPairs n d)
          (s := { tsHeadSt sel.length (some c) with ij := p, D := some (sel.length, D1), sec := .demands, pos := 0, demands := some ([] ++ List.replicate sel.length none) })
          (pre := []) (k := sel.length) rfl rfl rfl (by rw [hlen hcv])
        rw [hp, tsLoop_depots rfl]
        dsimp only
        rw [hfin _ rfl rfl rfl rfl rfl (show ¬ (1 : ℤ) < ([1] : List ℤ).headD 0 by decide)]
        simp only [hlen hcv, Nat.sub_self, List.replicate_zero, List.append_nil, List.nil_append]
        rfl
    · rw [if_neg hc] at hr; cases hr

end Verif
