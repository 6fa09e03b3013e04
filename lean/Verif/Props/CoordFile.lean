import Verif.Lemmas.CoordFile
import Verif.Props.ProblemFields

/-! # Problem files with coordinates (C67) -/

namespace Verif

open Spec

/-- The state after the coordinates. -/
theorem tsLoop_points {env : TsEnv} {fs : List HField} {hs ps : List (List Char)} {pts : List (ℚ × ℚ)} {rest : List TsKind}
    {t : List Char} (hh : List.Forall₂ HField.Line fs hs) (hp : List.Forall₂ (CoordLine env.float) pts ps)
    (hd : lastDimension fs = some pts.length) (ht : lastWeights fs = some t) (htt : t ≠ "EXPLICIT".toList) :
    tsLoop env (((hs ++ "NODE_COORD_SECTION".toList :: ps).map fun l => tsKind (l ++ ['\n'])) ++ rest) tsStart =
      tsLoop env rest ⟨.coords, pts.length, (0, 0), (pts.length : ℤ) - 1, lastCapacity fs,
        some (pts.map (stored env (decide (t = "GEO".toList)))), none, none, none, true, some t, none, []⟩ := by
  have k1 : tsKind ("NODE_COORD_SECTION".toList ++ ['\n']) = .head .coords := by decide +kernel
  rw [List.map_append, List.append_assoc, tsLoop_fields hh, heads_fold, hd, ht, List.map_cons, List.cons_append, k1]
  have hstep : tsLine env (.head .coords) { tsStart with N := ((some pts.length).map fun n : ℕ => (n : ℤ) - 1).getD tsStart.N, C := (lastCapacity fs).or tsStart.C, ewt := (some t).or tsStart.ewt } =
      .ok (some ⟨.coords, 0, (0, 0), (pts.length : ℤ) - 1, lastCapacity fs,
        some ([] ++ List.replicate pts.length (none, none)), none, none, none, true, some t, none, []⟩) := by
    simp only [tsLine, tsSetSection, Option.map_some, Option.getD_some, Int.sub_add_cancel, Int.toNat_natCast]
    rw [if_pos (by simpa [tsStart] using htt)]
    simp only [tsStart, Option.or_none, Option.some_or]
    rfl
  rw [tsLoop_step hstep, tsLoop_coords hp (pre := []) (k := pts.length) rfl rfl rfl (le_refl _)]
  simp only [Nat.sub_self, List.replicate_zero, List.append_nil, List.nil_append, List.length_nil, Nat.zero_add, Option.some.injEq]

/-- The state after the demands and the depot `k`. -/
theorem tsLoop_rest {env : TsEnv} {dl : List (List Char)} {ds : List ℚ} {k : ℕ} {rest : List TsKind} {s : TsSt}
    (hd : List.Forall₂ (DemandLine env.float) ds dl) (hl : (s.N + 1).toNat = ds.length) (hk : 1 ≤ k) (h0 : s.depots = []) :
    tsLoop env ((("DEMAND_SECTION".toList :: (dl ++ ["DEPOT_SECTION".toList, showNat k, ['-', '1'], "EOF".toList])).map
        fun l => tsKind (l ++ ['\n'])) ++ rest) s =
      .ok { s with sec := .depots, pos := 0, demands := some (ds.map some), depots := [(k : ℤ)] } := by
  have k1 : tsKind ("DEMAND_SECTION".toList ++ ['\n']) = .head .demands := by decide +kernel
  have k2 : tsKind ("DEPOT_SECTION".toList ++ ['\n']) = .head .depots := by decide +kernel
  have k4 : tsKind ['-', '1', '\n'] = .data ['-', '1'] := by decide +kernel
  have k5 : tsKind ("EOF".toList ++ ['\n']) = .eof := by decide +kernel
  have k3 : tsKind (showNat k ++ ['\n']) = .data (showNat k) := by
    rw [tsKind_data, strip_blanks_end (by decide), word_strip (word_show k)]
    · intro c hc
      rcases List.mem_append.1 hc with hc | hc
      · have := digit_plain (showNat_digit hc)
        exact ⟨this.1, this.2.1⟩
      · rw [List.mem_singleton.1 hc]; decide
    · obtain ⟨a, t, ha⟩ := List.exists_cons_of_ne_nil (showNat_ne_nil k)
      exact ⟨a, by rw [ha]; simp, (word_show k).2 a (by rw [ha]; simp)⟩
  have p2 : parseInt ['-', '1'] = .ok (-1) := by decide +kernel
  rw [List.map_cons, List.cons_append, k1]
  rw [tsLoop_step (s' := { s with sec := .demands, pos := 0, demands := some ([] ++ List.replicate ds.length none) }) (by
    simp only [tsLine, tsSetSection, hl]; rfl)]
  rw [List.map_append, List.append_assoc]
  rw [tsLoop_demands hd (s := { s with sec := .demands, pos := 0, demands := some ([] ++ List.replicate ds.length none) })
    (pre := []) (k := ds.length) rfl rfl rfl (le_refl _)]
  simp only [Nat.sub_self, List.replicate_zero, List.append_nil, List.nil_append, List.length_nil, Nat.zero_add, List.map_cons,
    List.map_nil, List.cons_append]
  rw [k2, k3, k4, k5]
  rw [tsLoop_step (s' := { s with sec := .depots, pos := 0, demands := some (ds.map some) }) (by rfl)]
  rw [tsLoop_step (s' := { s with sec := .depots, pos := 0, demands := some (ds.map some), depots := [(k : ℤ)] }) (by
    simp only [tsLine, tsData, parseInt_showNat, h0]
    rw [if_pos (by omega)]
    rfl)]
  rw [tsLoop_step (s' := { s with sec := .depots, pos := 0, demands := some (ds.map some), depots := [(k : ℤ)] }) (by
    simp only [tsLine, tsData, p2]; rfl)]
  rfl

theorem tsFinish_coords {env : TsEnv} {s : TsSt} {D : ℕ × (ℕ → ℕ → ℚ)} (he : s.ewt ≠ some "EXPLICIT".toList) (hu : s.upd = true)
    (hD : env.calcD (s.points.getD []) s.ewt = .ok D) :
    tsFinish env s =
      match (if 1 < s.depots.headD 0 then
          tsDepotFirst ((s.depots.headD 0).toNat - 1) ⟨s.N, s.points, s.dd, s.demands, some D, s.C, s.ewt⟩
        else .ok ⟨s.N, s.points, s.dd, s.demands, some D, s.C, s.ewt⟩) with
      | .error e => .error e
      | .ok P => if s.ewt = some "GEO".toList then .ok { P with dd_points := P.points, points := none } else .ok P := by
  unfold tsFinish tsCheck
  rw [if_neg he]
  dsimp only
  rw [if_pos hu, hD]
  rfl

/-- The lines of a CVRP with coordinates; what comes after the line `EOF` can be anything. -/
def coordText (hs ps dl : List (List Char)) (k : ℕ) (rest : List Char) : List Char :=
  textOf (hs ++ "NODE_COORD_SECTION".toList :: ps ++
    "DEMAND_SECTION".toList :: (dl ++ ["DEPOT_SECTION".toList, showNat k, ['-', '1'], "EOF".toList])) ++ rest

theorem read_coords {env : TsEnv} {fs : List HField} {hs ps dl : List (List Char)} {pts : List (ℚ × ℚ)} {ds : List ℚ}
    {t : List Char} {k : ℕ} {rest : List Char} (hh : List.Forall₂ HField.Line fs hs)
    (hp : List.Forall₂ (CoordLine env.float) pts ps) (hd : List.Forall₂ (DemandLine env.float) ds dl)
    (hn : lastDimension fs = some pts.length) (hl : ds.length = pts.length) (ht : lastWeights fs = some t)
    (htt : t ≠ "EXPLICIT".toList) (hk : 1 ≤ k) :
    read_TSPLIB_CVRP env (coordText hs ps dl k rest) = tsFinish env
      ⟨.depots, 0, (0, 0), (pts.length : ℤ) - 1, lastCapacity fs, some (pts.map (stored env (decide (t = "GEO".toList)))), none,
        some (ds.map some), none, true, some t, none, [(k : ℤ)]⟩ := by
  have hfree : ∀ l ∈ hs ++ "NODE_COORD_SECTION".toList :: ps ++
      "DEMAND_SECTION".toList :: (dl ++ ["DEPOT_SECTION".toList, showNat k, ['-', '1'], "EOF".toList]), '\n' ∉ l := by
    intro l hm
    simp only [List.mem_append, List.mem_cons, List.not_mem_nil, or_false] at hm
    rcases hm with (hm | rfl | hm) | rfl | hm | rfl | rfl | rfl | rfl
    · exact forall_free (fun _ _ => headLine_free) hh l hm
    · decide
    · exact forall_free (fun _ _ h => (coordLine_kind h).1) hp l hm
    · decide
    · exact forall_free (fun _ _ h => (demandLine_kind h).1) hd l hm
    · decide
    · exact fun h => absurd (showNat_digit h) (by decide)
    · decide
    · decide
  unfold read_TSPLIB_CVRP coordText textOf
  rw [readlines_text rest hfree, List.map_append, List.map_map]
  simp only [Function.comp_def]
  rw [List.map_append, List.append_assoc, tsLoop_points hh hp hn ht htt, tsLoop_rest hd (by simp [hl]) hk rfl]

/-- C67. A CVRP file with coordinates and the first node as the depot: the points, the demands, the capacity and the kind of the
distances are as the lines say, and the distances are those calculated from the points. The fields can be in any order, with
any other ones between them, and with any blanks. -/
theorem C67_coords {env : TsEnv} {fs : List HField} {hs ps dl : List (List Char)} {pts : List (ℚ × ℚ)} {ds : List ℚ}
    {t : List Char} {rest : List Char} {n : ℕ} {D : ℕ → ℕ → ℚ} (hh : List.Forall₂ HField.Line fs hs)
    (hp : List.Forall₂ (CoordLine env.float) pts ps) (hd : List.Forall₂ (DemandLine env.float) ds dl)
    (hn : lastDimension fs = some pts.length) (hl : ds.length = pts.length) (ht : lastWeights fs = some t)
    (htt : t ∈ coordTypes) (htg : t ≠ "GEO".toList)
    (hD : env.calcD (pts.map fun p => (some p.1, some p.2)) (some t) = .ok (n, D)) :
    read_TSPLIB_CVRP env (coordText hs ps dl 1 rest) =
      .ok ⟨(pts.length : ℤ) - 1, some (pts.map fun p => (some p.1, some p.2)), none, some (ds.map some), some (n, D),
        lastCapacity fs, some t⟩ := by
  rw [read_coords hh hp hd hn hl ht (coordTypes_word htt).2.2.1 (le_refl 1)]
  have hst : stored env (decide (t = "GEO".toList)) = fun p => (some p.1, some p.2) := by
    funext p
    rw [decide_eq_false htg]; rfl
  rw [hst, tsFinish_coords (by intro h; injection h with h; exact (coordTypes_word htt).2.2.1 h) rfl hD]
  dsimp only
  rw [if_neg (show ¬ (1 : ℤ) < [((1 : ℕ) : ℤ)].headD 0 by decide)]
  dsimp only
  rw [if_neg (by intro h; injection h with h; exact htg h)]

/-- C67. With geographical coordinates the points are given in radians, and only for the display. -/
theorem C67_geo {env : TsEnv} {fs : List HField} {hs ps dl : List (List Char)} {pts : List (ℚ × ℚ)} {ds : List ℚ}
    {rest : List Char} {n : ℕ} {D : ℕ → ℕ → ℚ} (hh : List.Forall₂ HField.Line fs hs)
    (hp : List.Forall₂ (CoordLine env.float) pts ps) (hd : List.Forall₂ (DemandLine env.float) ds dl)
    (hn : lastDimension fs = some pts.length) (hl : ds.length = pts.length) (ht : lastWeights fs = some "GEO".toList)
    (hD : env.calcD (pts.map fun p => (some (env.geo p.1), some (env.geo p.2))) (some "GEO".toList) = .ok (n, D)) :
    read_TSPLIB_CVRP env (coordText hs ps dl 1 rest) =
      .ok ⟨(pts.length : ℤ) - 1, none, some (pts.map fun p => (some (env.geo p.1), some (env.geo p.2))), some (ds.map some),
        some (n, D), lastCapacity fs, some "GEO".toList⟩ := by
  rw [read_coords hh hp hd hn hl ht (by decide) (le_refl 1)]
  have hst : stored env (decide ("GEO".toList = "GEO".toList)) = fun p => (some (env.geo p.1), some (env.geo p.2)) := by
    funext p
    rw [decide_eq_true rfl]; rfl
  rw [hst, tsFinish_coords (show some "GEO".toList ≠ some "EXPLICIT".toList by decide) rfl hD]
  dsimp only
  rw [if_neg (show ¬ (1 : ℤ) < [((1 : ℕ) : ℤ)].headD 0 by decide)]
  dsimp only
  rw [if_pos rfl]

/-- C67. If another node is the depot, it becomes the first one in the lists of points and demands and the others keep their order.
(The matrix of the distances does not follow in its last row and column, see `C67_depot_false` and C35.) -/
theorem C67_depot_partial {env : TsEnv} {fs : List HField} {hs ps dl : List (List Char)} {pts : List (ℚ × ℚ)} {ds : List ℚ}
    {t : List Char} {k : ℕ} {rest : List Char} {D : ℕ → ℕ → ℚ} (hh : List.Forall₂ HField.Line fs hs)
    (hp : List.Forall₂ (CoordLine env.float) pts ps) (hd : List.Forall₂ (DemandLine env.float) ds dl)
    (hn : lastDimension fs = some pts.length) (hl : ds.length = pts.length) (ht : lastWeights fs = some t)
    (htt : t ∈ coordTypes) (htg : t ≠ "GEO".toList) (hk : 1 < k) (hk' : k ≤ pts.length)
    (hD : env.calcD (pts.map fun p => (some p.1, some p.2)) (some t) = .ok (pts.length, D)) :
    ∃ D', read_TSPLIB_CVRP env (coordText hs ps dl k rest) =
        .ok ⟨(pts.length : ℤ) - 1, some ((pts.getD (k - 1) (0, 0) :: pts.eraseIdx (k - 1)).map fun p => (some p.1, some p.2)), none,
          some ((ds.getD (k - 1) 0 :: ds.eraseIdx (k - 1)).map some), some (pts.length, D'), lastCapacity fs, some t⟩ ∧
      ∀ a b, a + 1 < pts.length → b < pts.length → depotFirst (k - 1) b + 1 < pts.length →
        D' a b = D (depotFirst (k - 1) a) (depotFirst (k - 1) b) := by
  have hperm : ∀ {α β : Type} (l : List α) (f : α → β) (d : α) (j : ℕ), j < l.length →
      tsPermuted (some (l.map f)) j = .ok (some ((l.getD j d :: l.eraseIdx j).map f)) := by
    intro α β l f d j hj
    have h1 : permuteList (l.map f) j = .ok ((l.getD j d :: l.eraseIdx j).map f) := by
      unfold permuteList
      have : idx (l.map f) j = .ok (f l[j]) := by
        unfold idx
        rw [List.getElem?_map, List.getElem?_eq_getElem hj]; rfl
      rw [this, List.getD_eq_getElem _ _ hj, List.eraseIdx_eq_take_drop_succ]
      simp
    unfold tsPermuted
    cases l with
    | nil => simp at hj
    | cons a l =>
      simp only [List.map_cons] at h1 ⊢
      rw [h1]; rfl
  refine ⟨permuteD pts.length (fun i => (depotPerm pts.length (k - 1)).getD i 0) D, ?_, fun a b ha hb hb' =>
    C35_matrix_partial (by omega) D ha hb hb'⟩
  rw [read_coords hh hp hd hn hl ht (coordTypes_word htt).2.2.1 (by omega)]
  have hst : stored env (decide (t = "GEO".toList)) = fun p => (some p.1, some p.2) := by
    funext p
    rw [decide_eq_false htg]; rfl
  rw [hst, tsFinish_coords (by intro h; injection h with h; exact (coordTypes_word htt).2.2.1 h) rfl hD]
  dsimp only
  rw [if_pos (show (1 : ℤ) < [(k : ℤ)].headD 0 by show (1 : ℤ) < k; omega)]
  have hj : ([(k : ℤ)].headD 0).toNat - 1 = k - 1 := by simp
  rw [hj]
  unfold tsDepotFirst
  dsimp only
  rw [if_neg (by omega), hperm ds some 0 (k - 1) (by omega)]
  dsimp only
  rw [hperm pts _ (0, 0) (k - 1) (by omega)]
  dsimp only [tsPermuted]
  rw [if_neg (by intro h; injection h with h; exact htg h)]

/-- C67. A TSP file with coordinates has neither demands nor a depot. -/
theorem C67_tsp {env : TsEnv} {fs : List HField} {hs ps : List (List Char)} {pts : List (ℚ × ℚ)}
    {t : List Char} {rest : List Char} {n : ℕ} {D : ℕ → ℕ → ℚ} (hh : List.Forall₂ HField.Line fs hs)
    (hp : List.Forall₂ (CoordLine env.float) pts ps)
    (hn : lastDimension fs = some pts.length) (ht : lastWeights fs = some t)
    (htt : t ∈ coordTypes) (htg : t ≠ "GEO".toList)
    (hD : env.calcD (pts.map fun p => (some p.1, some p.2)) (some t) = .ok (n, D)) :
    read_TSPLIB_CVRP env (textOf (hs ++ "NODE_COORD_SECTION".toList :: ps ++ ["EOF".toList]) ++ rest) =
      .ok ⟨(pts.length : ℤ) - 1, some (pts.map fun p => (some p.1, some p.2)), none, none, some (n, D),
        lastCapacity fs, some t⟩ := by
  have hfree : ∀ l ∈ hs ++ "NODE_COORD_SECTION".toList :: ps ++ ["EOF".toList], '\n' ∉ l := by
    intro l hm
    simp only [List.mem_append, List.mem_cons, List.not_mem_nil, or_false] at hm
    rcases hm with (hm | rfl | hm) | rfl
    · exact forall_free (fun _ _ => headLine_free) hh l hm
    · decide
    · exact forall_free (fun _ _ h => (coordLine_kind h).1) hp l hm
    · decide
  have k5 : tsKind ("EOF".toList ++ ['\n']) = .eof := by decide +kernel
  have hst : stored env (decide (t = "GEO".toList)) = fun p => (some p.1, some p.2) := by
    funext p
    rw [decide_eq_false htg]; rfl
  unfold read_TSPLIB_CVRP textOf
  rw [readlines_text rest hfree, List.map_append, List.map_map]
  simp only [Function.comp_def]
  rw [List.map_append, List.append_assoc, tsLoop_points hh hp hn ht (coordTypes_word htt).2.2.1, List.map_cons, k5, hst,
    List.cons_append]
  show tsFinish env _ = _
  rw [tsFinish_coords (by intro h; injection h with h; exact (coordTypes_word htt).2.2.1 h) rfl hD]
  dsimp only
  rw [if_neg (show ¬ (1 : ℤ) < ([] : List ℤ).headD 0 by decide)]
  dsimp only
  rw [if_neg (by intro h; injection h with h; exact htg h)]

/-- C67. Empty lines, and lines of blanks, change nothing, wherever they are. -/
theorem C67_blank_lines {env : TsEnv} {ls : List (List Char)} (h : ∀ l ∈ ls, '\n' ∉ l) :
    read_TSPLIB_CVRP env (textOf ls) = read_TSPLIB_CVRP env (textOf (ls.filter fun l => l.any fun c => c ≠ ' ' ∧ c ≠ '\t')) := by
  unfold read_TSPLIB_CVRP
  rw [readlines_textOf h, readlines_textOf fun l hl => h l (List.mem_of_mem_filter hl)]
  have key : ∀ (ls : List (List Char)) (s : TsSt), tsLoop env ((ls.map fun l => l ++ ['\n']).map tsKind) s =
      tsLoop env (((ls.filter fun l => l.any fun c => decide (c ≠ ' ' ∧ c ≠ '\t')).map fun l => l ++ ['\n']).map tsKind) s := by
    intro ls
    induction ls with
    | nil => intro s; rfl
    | cons l ls ih =>
      intro s
      by_cases hb : (l.any fun c => decide (c ≠ ' ' ∧ c ≠ '\t')) = true
      · rw [List.filter_cons_of_pos (p := fun l : List Char => l.any fun c => decide (c ≠ ' ' ∧ c ≠ '\t')) hb]
        simp only [List.map_cons, tsLoop]
        cases tsLine env (tsKind (l ++ ['\n'])) s with
        | error e => rfl
        | ok o =>
          cases o with
          | none => rfl
          | some s' => exact ih s'
      · rw [List.filter_cons_of_neg (p := fun l : List Char => l.any fun c => decide (c ≠ ' ' ∧ c ≠ '\t')) hb]
        have hbl : ∀ c ∈ l ++ ['\n'], isWS c = true := by
          intro c hc
          rcases List.mem_append.1 hc with hc | hc
          · rw [Bool.not_eq_true, List.any_eq_false] at hb
            have := hb c hc
            simp only [decide_eq_true_eq, not_and_or, not_not] at this
            rcases this with rfl | rfl <;> decide
          · rw [List.mem_singleton.1 hc]; decide
        have hk : tsKind (l ++ ['\n']) = .blank := by
          unfold tsKind
          dsimp only
          rw [strip_all hbl, if_pos rfl]
        rw [List.map_cons, List.map_cons, hk]
        exact ih s
  rw [key ls tsStart]

/-! ## Concrete cases -/

/-- Whole numbers, and distances along the first axis. -/
def egLine : TsEnv where
  float := egFloat
  geo x := x
  calcD ps _ := .ok (ps.length, fun i j => |((ps.getD i (none, none)).1.getD 0) - ((ps.getD j (none, none)).1.getD 0)|)

theorem egReads (z : ℤ) : Reads egLine.float (showInt z) z :=
  ⟨(word_showInt z).1, fun _ hc => showInt_all hc, by show egFloat _ = _; unfold egFloat; rw [parseInt_showInt]; rfl⟩

/-- The hypotheses of `C67_coords` are those of an ordinary file. -/
example : read_TSPLIB_CVRP egLine (coordText
      ["NAME : x".toList, "CAPACITY : 7".toList, "EDGE_WEIGHT_TYPE: MAN_2D".toList, "DIMENSION :2".toList, "TYPE : CVRP".toList]
      ["1 3 4".toList, " 2  -5 6".toList] ["1 0".toList, "2 4 ".toList] 1 "anything".toList) =
    .ok ⟨1, some [(some 3, some 4), (some (-5), some 6)], none, some [some 0, some 4],
      some (2, fun i j => |(([(some (3 : ℚ), some (4 : ℚ)), (some (-5), some 6)].getD i (none, none)).1.getD 0) -
        (([(some (3 : ℚ), some (4 : ℚ)), (some (-5), some 6)].getD j (none, none)).1.getD 0)|),
      some 7, some "MAN_2D".toList⟩ := by
  have hb : ∀ u : List Char, u.all (fun c => c = ' ' ∨ c = '\t') = true → Blanks u := by
    intro u h c hc
    have := List.all_eq_true.1 h c hc
    simpa using this
  have h := C67_coords (env := egLine) (fs := [.other, .capacity 7, .weights "MAN_2D".toList, .dimension 2, .type "CVRP".toList])
    (hs := ["NAME : x".toList, "CAPACITY : 7".toList, "EDGE_WEIGHT_TYPE: MAN_2D".toList, "DIMENSION :2".toList, "TYPE : CVRP".toList])
    (ps := ["1 3 4".toList, " 2  -5 6".toList]) (dl := ["1 0".toList, "2 4 ".toList]) (pts := [(3, 4), (-5, 6)]) (ds := [0, 4])
    (t := "MAN_2D".toList) (rest := "anything".toList)
    (.cons ⟨by decide, "NAME ".toList, " x".toList, by decide, by decide, by decide +kernel⟩
      (.cons ⟨[], [' '], [' '], [], hb _ (by decide), hb _ (by decide), hb _ (by decide), hb _ (by decide), by decide +kernel⟩
      (.cons ⟨by decide, [], [], [' '], [], hb _ (by decide), hb _ (by decide), hb _ (by decide), hb _ (by decide), by decide⟩
      (.cons ⟨[], [' '], [], [], hb _ (by decide), hb _ (by decide), hb _ (by decide), hb _ (by decide), by decide +kernel⟩
      (.cons ⟨.inl rfl, [], [' '], [' '], [], hb _ (by decide), hb _ (by decide), hb _ (by decide), hb _ (by decide), by decide⟩ .nil)))))
    (.cons ⟨[], 1, [], showInt 3, [], showInt 4, [], hb _ (by decide), hb _ (by decide), hb _ (by decide), hb _ (by decide),
        egReads 3, egReads 4, by decide +kernel⟩
      (.cons ⟨[' '], 2, [' '], showInt (-5), [], showInt 6, [], hb _ (by decide), hb _ (by decide), hb _ (by decide), hb _ (by decide),
        by simpa using egReads (-5), egReads 6, by decide +kernel⟩ .nil))
    (.cons ⟨[], 1, [], showInt 0, [], hb _ (by decide), hb _ (by decide), hb _ (by decide), by simpa using egReads 0, by decide +kernel⟩
      (.cons ⟨[], 2, [], showInt 4, [' '], hb _ (by decide), hb _ (by decide), hb _ (by decide), egReads 4, by decide +kernel⟩ .nil))
    rfl rfl rfl (by decide) (by decide) rfl
  exact h

/-- What a test can look at. -/
def egSee (r : Py TsProblem) : Option (Option (List (Option ℚ)) × Option (List (Option ℚ)) × List ℚ) :=
  match r with
  | .ok P => some (P.points.map fun l => l.map Prod.fst, P.demands, match P.D with
      | some (n, D) => (List.range n).flatMap fun i => (List.range n).map fun j => D i j
      | none => [])
  | .error _ => none

/-- The head of the files below. -/
def egHead : List (List Char) := ["DIMENSION : 3".toList, "EDGE_WEIGHT_TYPE: MAN_2D".toList]

example : egSee (read_TSPLIB_CVRP egLine (coordText egHead ["1 0 0".toList, "2 3 0".toList, "3 9 0".toList]
    ["1 0".toList, "2 4".toList, "3 5".toList] 1 [])) =
    some (some [some 0, some 3, some 9], some [some 0, some 4, some 5], [0, 3, 9, 3, 0, 6, 9, 6, 0]) := by decide +kernel

/-- C67 is false if the lines are not in the order of the numbers of the nodes: these numbers are not read. Here the demand of
node 2 is 4, but it gets 5. -/
theorem C67_numbers_false : egSee (read_TSPLIB_CVRP egLine (coordText egHead ["1 0 0".toList, "2 3 0".toList, "3 9 0".toList]
    ["1 0".toList, "3 5".toList, "2 4".toList] 1 [])) =
    some (some [some 0, some 3, some 9], some [some 0, some 5, some 4], [0, 3, 9, 3, 0, 6, 9, 6, 0]) := by decide +kernel

/-- C67 is false if a demand is missing: the file is accepted with no number for the demand. -/
theorem C67_missing_false : egSee (read_TSPLIB_CVRP egLine (coordText egHead ["1 0 0".toList, "2 3 0".toList, "3 9 0".toList]
    ["1 0".toList, "2 4".toList] 1 [])) =
    some (some [some 0, some 3, some 9], some [some 0, some 4, none], [0, 3, 9, 3, 0, 6, 9, 6, 0]) := by decide +kernel

/-- C67 is false for another depot than the first node: the points are those of the nodes 2, 1 and 3, at 3, 0 and 9, but
the distance from the depot to the last node, at the end of the first row, is 9 and not 6. -/
theorem C67_depot_false : egSee (read_TSPLIB_CVRP egLine (coordText egHead ["1 0 0".toList, "2 3 0".toList, "3 9 0".toList]
    ["1 0".toList, "2 4".toList, "3 5".toList] 2 [])) =
    some (some [some 3, some 0, some 9], some [some 4, some 0, some 5], [0, 3, 9, 3, 0, 6, 9, 6, 0]) := by decide +kernel

/-- Two depots are refused. -/
example : egSee (read_TSPLIB_CVRP egLine (textOf (egHead ++ ["DEPOT_SECTION".toList, "1".toList, "2".toList, "-1".toList]))) = none := by
  decide +kernel

/-- A depot of a number below one does not count. -/
example : egSee (read_TSPLIB_CVRP egLine (textOf (egHead ++ ["NODE_COORD_SECTION".toList, "1 0 0".toList, "2 3 0".toList,
    "3 9 0".toList, "DEPOT_SECTION".toList, "0".toList, "2".toList, "-1".toList, "EOF".toList]))) =
    some (some [some 3, some 0, some 9], none, [0, 3, 9, 3, 0, 6, 9, 6, 0]) := by
  decide +kernel

end Verif
