import Verif.Lemmas.ProblemFile

/-! # The lines of a file that was written, and how they are read -/

namespace Verif

open Spec

/-! ## The lines that are written -/

/-- The lines of the matrix. -/
def wRowLines (fmt : ℚ → List Char) (precision : Option ℚ) (D : ℕ → ℕ → ℚ) : List ℕ → List (List Char)
  | [] => []
  | [_] => []
  | i :: j :: t => ((j :: t).flatMap fun k => wToken fmt precision (D i k) ++ [' ']) :: wRowLines fmt precision D (j :: t)

theorem wRows_lines (fmt : ℚ → List Char) (precision : Option ℚ) (D : ℕ → ℕ → ℚ) : ∀ sel : List ℕ,
    wRows fmt precision D sel = (wRowLines fmt precision D sel).flatMap fun l => l ++ ['\n']
  | [] => rfl
  | [_] => rfl
  | i :: j :: t => by
    rw [wRows, wRowLines, wRows_lines fmt precision D (j :: t), if_neg (by simp)]
    rfl

/-- The number that is written for a distance. -/
def wOut (precision : Option ℚ) (x : ℚ) : ℚ := match precision with
  | none => x
  | some p => ((x * p).num.tdiv (x * p).den : ℤ)

/-- The nodes and demands that are written. -/
def wPairs (n : ℕ) (d : Option (List ℚ)) : List (ℕ × ℤ) :=
  match d with
  | some (_ :: t) => (1, 0) :: (pyRange 2 (t.length + 2)).zip (t.map pyInt)
  | _ => (1, 0) :: (pyRange 2 (n + 1)).map fun i => (i, 1)

/-- A line of the demands. -/
def wPairLine (e : ℕ × ℤ) : List Char := showNat e.1 ++ [' '] ++ showInt e.2

theorem showInt_zero : showInt 0 = ['0'] := by decide

theorem showInt_one : showInt 1 = ['1'] := by decide

theorem wDemands_lines (n : ℕ) (d : Option (List ℚ)) :
    "1 0\n".toList ++ wDemands n d = ((wPairs n d).map wPairLine).flatMap fun l => l ++ ['\n'] := by
  have h1 : "1 0\n".toList = wPairLine (1, 0) ++ ['\n'] := by decide
  have h2 : ∀ m, ((pyRange 2 (m + 1)).flatMap fun i => showNat i ++ " 1\n".toList) =
      (((pyRange 2 (m + 1)).map fun i => (i, (1 : ℤ))).map wPairLine).flatMap fun l => l ++ ['\n'] := by
    intro m
    rw [List.map_map, List.flatMap_map]
    refine List.flatMap_congr fun i _ => ?_
    show _ = showNat i ++ [' '] ++ showInt 1 ++ ['\n']
    rw [showInt_one, List.append_assoc, List.append_assoc]
    rfl
  match d with
  | none => rw [wDemands, wPairs, h1, h2, List.map_cons, List.flatMap_cons] <;> simp
  | some [] => rw [wDemands, wPairs, h1, h2, List.map_cons, List.flatMap_cons] <;> simp
  | some (x :: t) =>
    rw [wDemands, wPairs]
    rw [h1, List.map_cons, List.flatMap_cons]
    congr 1
    rw [← List.map_id (pyRange 2 (t.length + 2)), List.zip_map, List.map_map, List.flatMap_map, List.map_id]
    rfl

/-- All the lines but the last one. -/
def wFileLines (fmt : ℚ → List Char) (cvrp : Bool) (n : ℕ) (D : ℕ → ℕ → ℚ) (d : Option (List ℚ))
    (C L : Option ℚ) (sel : List ℕ) (precision : Option ℚ) : List (List Char) :=
  ["NAME: temporary".toList] ++
  (if cvrp then
    ["TYPE: CVRP".toList, "CAPACITY".toList ++ ':' :: ' ' :: showInt (if truthy C then pyInt (C.getD 0) else n)] ++
    (if truthy L then ["DISTANCE".toList ++ ':' :: ' ' :: showInt (pyInt (L.getD 0))] else [])
  else ["TYPE: TSP".toList]) ++
  ["COMMENT: temporary CVRP or TSP problem".toList, "DIMENSION".toList ++ ':' :: ' ' :: showNat sel.length,
    "EDGE_WEIGHT_TYPE: EXPLICIT".toList, "EDGE_WEIGHT_FORMAT: UPPER_ROW".toList, "EDGE_WEIGHT_SECTION".toList] ++
  wRowLines fmt precision D sel ++
  (if cvrp then ["DEMAND_SECTION".toList] ++ (wPairs n d).map wPairLine ++ ["DEPOT_SECTION".toList, ['1'], ['-', '1']] else [])

theorem write_lines (fmt : ℚ → List Char) (path : List Char) (n : ℕ) (D : ℕ → ℕ → ℚ) (d : Option (List ℚ))
    (C L : Option ℚ) (selected : List ℕ) (precision : Option ℚ) :
    write_TSPLIB_file fmt path n D d C L selected precision =
      ((wFileLines fmt (wCvrp path) n D d C L (if selected = [] then pyRange 0 n else selected) precision).flatMap
        fun l => l ++ ['\n']) ++ "EOF".toList := by
  have e1 : "NAME: temporary\n".toList = "NAME: temporary".toList ++ ['\n'] := by decide
  have e2 : "TYPE: CVRP\n".toList = "TYPE: CVRP".toList ++ ['\n'] := by decide
  have e3 : "TYPE: TSP\n".toList = "TYPE: TSP".toList ++ ['\n'] := by decide
  have e4 : "COMMENT: temporary CVRP or TSP problem\n".toList = "COMMENT: temporary CVRP or TSP problem".toList ++ ['\n'] := by
    decide
  have e5 : "EDGE_WEIGHT_TYPE: EXPLICIT\n".toList = "EDGE_WEIGHT_TYPE: EXPLICIT".toList ++ ['\n'] := by decide
  have e6 : "EDGE_WEIGHT_FORMAT: UPPER_ROW\n".toList = "EDGE_WEIGHT_FORMAT: UPPER_ROW".toList ++ ['\n'] := by decide
  have e7 : "EDGE_WEIGHT_SECTION\n".toList = "EDGE_WEIGHT_SECTION".toList ++ ['\n'] := by decide
  have e8 : "DEMAND_SECTION\n".toList = "DEMAND_SECTION".toList ++ ['\n'] := by decide
  have e9 : "DEPOT_SECTION\n".toList = "DEPOT_SECTION".toList ++ ['\n'] := by decide
  have e10 : "1\n".toList = ['1'] ++ ['\n'] := by decide
  have e11 : "-1\n".toList = ['-', '1'] ++ ['\n'] := by decide
  have c1 : "CAPACITY: ".toList = "CAPACITY".toList ++ [':', ' '] := by decide
  have c2 : "DISTANCE: ".toList = "DISTANCE".toList ++ [':', ' '] := by decide
  have c3 : "DIMENSION: ".toList = "DIMENSION".toList ++ [':', ' '] := by decide
  have hd : ∀ x y : List Char, x ++ "1 0\n".toList ++ wDemands n d ++ y = x ++
      (((wPairs n d).map wPairLine).flatMap fun l => l ++ ['\n']) ++ y := by
    intro x y
    rw [List.append_assoc x, wDemands_lines]
  unfold write_TSPLIB_file wFileLines
  dsimp only
  rw [e1, e2, e3, e4, e5, e6, e7, wRows_lines, hd, e8, e9, e10, e11, c1, c2, c3]
  cases wCvrp path <;> cases truthy L <;>
    simp only [List.flatMap_append, List.flatMap_cons, List.flatMap_nil, List.append_assoc, List.append_nil, List.nil_append,
      List.cons_append, List.singleton_append, Bool.false_eq_true, if_false, if_true]

/-! ## Reading -/

theorem tsLoop_step {env : TsEnv} {k : TsKind} {s s' : TsSt} (h : tsLine env k s = .ok (some s')) (t : List TsKind) :
    tsLoop env (k :: t) s = tsLoop env t s' := by
  rw [tsLoop, h]

theorem readWeights_append (f : EWFormat) (n : ℕ) : ∀ (a b : List ℚ) (p : ℕ × ℕ) (D : ℕ → ℕ → ℚ),
    readWeights f n (a ++ b) p D = match readWeights f n a p D with
      | .error e => .error e
      | .ok (p', D') => readWeights f n b p' D'
  | [], b, p, D => rfl
  | v :: a, b, p, D => by
    rw [List.cons_append, readWeights, readWeights]
    by_cases h : p.1 < n ∧ p.2 < n
    · rw [if_pos h, if_pos h, readWeights_append f n a b]
    · rw [if_neg h, if_neg h]

theorem tsWeights_read {env : TsEnv} {f : EWFormat} {n : ℕ} {α : Type} {tok : α → List Char} {val : α → ℚ} : ∀ (l : List α),
    (∀ x ∈ l, env.float (tok x) = .ok (val x)) → ∀ (p : ℕ × ℕ) (D : ℕ → ℕ → ℚ),
    tsWeights env f n (l.map tok) p D = readWeights f n (l.map val) p D
  | [], _, p, D => rfl
  | x :: l, h, p, D => by
    rw [List.map_cons, List.map_cons, tsWeights, readWeights, h x (by simp)]
    dsimp only
    split_ifs
    · exact tsWeights_read l (fun y hy => h y (by simp [hy])) _ _
    · rfl

theorem splitWS_tokens {α : Type} {tok : α → List Char} : ∀ (l : List α), (∀ x ∈ l, Word (tok x)) → ∀ r : List Char,
    splitWS ((l.flatMap fun x => tok x ++ [' ']) ++ r) = l.map tok ++ splitWS r
  | [], _, r => rfl
  | x :: l, h, r => by
    rw [List.flatMap_cons, List.append_assoc, List.append_assoc, List.singleton_append, splitWS_word (h x (by simp)) (by decide),
      splitWS_tokens l fun y hy => h y (by simp [hy])]
    rfl

theorem plain_ws {c : Char} (h : Plain c) : isWS c = false := by
  have := h.2.2
  simp only [List.mem_cons, List.not_mem_nil, or_false, not_or] at this
  simp [isWS, this]

theorem digit_plain {c : Char} (h : c.isDigit = true) : Plain c := by
  refine ⟨?_, digit_ne h (by decide), ?_⟩
  · have := digit_range h
    unfold Char.isUpper
    rw [decide_eq_false_iff_not]
    rintro ⟨h2, -⟩
    have h3 : 65 ≤ c.toNat := h2
    omega
  · have := digit_not_ws h
    intro hm
    simp only [List.mem_cons, List.not_mem_nil, or_false] at hm
    rcases hm with rfl | rfl | rfl | rfl <;> exact absurd this (by decide)

theorem showInt_all {z : ℤ} {c : Char} (h : c ∈ showInt z) : Plain c := by
  rcases showInt_plain h with rfl | h
  · exact ⟨by decide, by decide, by decide⟩
  · exact digit_plain h

/-- The tokens of a matrix are written as numbers. -/
structure TokenOk (float : List Char → Py ℚ) (fmt : ℚ → List Char) (precision : Option ℚ) (x : ℚ) : Prop where
  back : float (wToken fmt precision x) = .ok (wOut precision x)
  word : Word (wToken fmt precision x)
  plain : ∀ c ∈ wToken fmt precision x, Plain c

theorem tokenOk {float : List Char → Py ℚ} {fmt : ℚ → List Char} {precision : Option ℚ} {S : ℚ → Prop}
    (h : Numbers float fmt S) {x : ℚ} (hx : precision = none → S x) : TokenOk float fmt precision x := by
  cases precision with
  | none => exact ⟨h.back x (hx rfl), ⟨h.some x (hx rfl), fun c hc => plain_ws (h.plain x (hx rfl) c hc)⟩, h.plain x (hx rfl)⟩
  | some p => exact ⟨h.whole _, word_showInt _, fun c hc => showInt_all hc⟩

theorem tsKind_row {float : List Char → Py ℚ} {fmt : ℚ → List Char} {precision : Option ℚ} {D : ℕ → ℕ → ℚ} {i : ℕ} {l : List ℕ}
    (hl : l ≠ []) (h : ∀ k ∈ l, TokenOk float fmt precision (D i k)) :
    ∃ line, tsKind ((l.flatMap fun k => wToken fmt precision (D i k) ++ [' ']) ++ ['\n']) = .data line ∧
      splitWS line = l.map fun k => wToken fmt precision (D i k) := by
  refine ⟨_, tsKind_data (fun c hc => ?_) ?_, ?_⟩
  · rcases List.mem_append.1 hc with hc | hc
    · obtain ⟨k, hk, hc⟩ := List.mem_flatMap.1 hc
      rcases List.mem_append.1 hc with hc | hc
      · have := (h k hk).plain c hc
        exact ⟨this.1, this.2.1⟩
      · rw [List.mem_singleton.1 hc]; decide
    · rw [List.mem_singleton.1 hc]; decide
  · obtain ⟨k, t, rfl⟩ := List.exists_cons_of_ne_nil hl
    have hw := (h k (by simp)).word
    obtain ⟨c, w, e⟩ := List.exists_cons_of_ne_nil hw.1
    exact ⟨c, by rw [List.flatMap_cons, e]; simp, hw.2 c (by rw [e]; simp)⟩
  · rw [splitWS_strip, splitWS_tokens l fun k hk => (h k hk).word]
    show _ ++ splitWS ['\n'] = _
    rw [splitWS_ws (by decide)]
    exact List.append_nil _

/-- The lines of the matrix are read. -/
theorem tsLoop_rows {env : TsEnv} {fmt : ℚ → List Char} {precision : Option ℚ} {D : ℕ → ℕ → ℚ} {n : ℕ} {rest : List TsKind} :
    ∀ (sel : List ℕ), (∀ i ∈ sel, ∀ j ∈ sel, TokenOk env.float fmt precision (D i j)) → ∀ {s : TsSt} {D0 : ℕ → ℕ → ℚ},
    s.sec = .weights → s.D = some (n, D0) → ewFormat s.ewf = .upperRow → ∀ {p' : ℕ × ℕ} {D' : ℕ → ℕ → ℚ},
    readWeights .upperRow n (writeExplicit.rows D (wOut precision) sel) s.ij D0 = .ok (p', D') →
    tsLoop env ((wRowLines fmt precision D sel).map (fun l => tsKind (l ++ ['\n'])) ++ rest) s =
      tsLoop env rest { s with ij := p', D := some (n, D') }
  | [], _, s, D0, h1, h2, h3, p', D', hr => by
    obtain ⟨rfl, rfl⟩ : s.ij = p' ∧ D0 = D' := by
      simp only [writeExplicit.rows, readWeights] at hr
      injection hr with hr
      exact Prod.mk.inj hr
    rw [← h2]
    rfl
  | [i], _, s, D0, h1, h2, h3, p', D', hr => by
    obtain ⟨rfl, rfl⟩ : s.ij = p' ∧ D0 = D' := by
      simp only [writeExplicit.rows, List.map_nil, List.nil_append, readWeights] at hr
      injection hr with hr
      exact Prod.mk.inj hr
    rw [← h2]
    rfl
  | i :: j :: t, h, s, D0, h1, h2, h3, p', D', hr => by
    rw [writeExplicit.rows, readWeights_append] at hr
    rw [wRowLines, List.map_cons, List.cons_append]
    obtain ⟨line, hk, hsp⟩ := tsKind_row (float := env.float) (fmt := fmt) (precision := precision) (D := D) (i := i)
      (l := j :: t) (by simp) fun k hk => h i (by simp) k (List.mem_cons_of_mem _ hk)
    rw [hk]
    have hw : tsWeights env .upperRow n (splitWS line) s.ij D0 =
        readWeights .upperRow n ((j :: t).map fun k => wOut precision (D i k)) s.ij D0 := by
      rw [hsp]
      exact tsWeights_read (j :: t) (fun k hk => (h i (by simp) k (List.mem_cons_of_mem _ hk)).back) _ _
    cases hq : readWeights .upperRow n ((j :: t).map fun k => wOut precision (D i k)) s.ij D0 with
    | error e => rw [hq] at hr; cases hr
    | ok q =>
      obtain ⟨p1, D1⟩ := q
      rw [hq] at hr hw
      have hstep : tsLine env (.data line) s = .ok (some { s with ij := p1, D := some (n, D1) }) := by
        simp only [tsLine, tsData, h1, h2, h3, hw]
        rfl
      rw [tsLoop_step hstep]
      have := tsLoop_rows (rest := rest) (j :: t) (fun a ha b hb => h a (List.mem_cons_of_mem _ ha) b (List.mem_cons_of_mem _ hb))
        (s := { s with ij := p1, D := some (n, D1) }) h1 rfl h3 hr
      rw [this]

theorem tsKind_pair (e : ℕ × ℤ) : ∃ line, tsKind (wPairLine e ++ ['\n']) = .data line ∧
    splitWS line = [showNat e.1, showInt e.2] := by
  refine ⟨_, tsKind_data (fun c hc => ?_) ?_, ?_⟩
  · rcases List.mem_append.1 hc with hc | hc
    · rcases List.mem_append.1 hc with hc | hc
      · rcases List.mem_append.1 hc with hc | hc
        · have := digit_plain (showNat_digit hc)
          exact ⟨this.1, this.2.1⟩
        · rw [List.mem_singleton.1 hc]; decide
      · have := showInt_all hc
        exact ⟨this.1, this.2.1⟩
    · rw [List.mem_singleton.1 hc]; decide
  · have hw := word_showInt e.2
    obtain ⟨c, w, he⟩ := List.exists_cons_of_ne_nil hw.1
    exact ⟨c, by unfold wPairLine; rw [he]; simp, hw.2 c (by rw [he]; simp)⟩
  · rw [splitWS_strip]
    unfold wPairLine
    rw [List.append_assoc, List.append_assoc, List.singleton_append, splitWS_word (word_show _) (by decide),
      splitWS_word (word_showInt _) (by decide)]
    rfl

theorem set_replicate {α : Type} (pre : List (Option α)) (k : ℕ) (x : α) :
    (pre ++ List.replicate (k + 1) none).set pre.length (some x) = pre ++ [some x] ++ List.replicate k none := by
  rw [List.set_append_right _ _ (le_refl _), Nat.sub_self, List.replicate_succ, List.set_cons_zero, List.append_assoc]
  rfl

/-- The lines of the demands are read. -/
theorem tsLoop_pairs {env : TsEnv} (hf : ∀ z : ℤ, env.float (showInt z) = .ok z) {rest : List TsKind} : ∀ (es : List (ℕ × ℤ))
    {s : TsSt} {pre : List (Option ℚ)} {k : ℕ}, s.sec = .demands → s.demands = some (pre ++ List.replicate k none) →
    s.pos = pre.length → es.length ≤ k →
    tsLoop env (es.map (fun e => tsKind (wPairLine e ++ ['\n'])) ++ rest) s = tsLoop env rest
      { s with demands := some (pre ++ es.map (fun e => some (e.2 : ℚ)) ++ List.replicate (k - es.length) none)
               pos := pre.length + es.length }
  | [], s, pre, k, h1, h2, h3, hk => by
    simp only [List.map_nil, List.nil_append, List.append_nil, List.length_nil, Nat.sub_zero, Nat.add_zero, ← h2, ← h3]
  | e :: es, s, pre, 0, h1, h2, h3, hk => by simp at hk
  | e :: es, s, pre, k + 1, h1, h2, h3, hk => by
    obtain ⟨line, hl, hsp⟩ := tsKind_pair e
    rw [List.map_cons, List.cons_append, hl]
    have hstep : tsLine env (.data line) s = .ok (some { s with
        demands := some (pre ++ [some (e.2 : ℚ)] ++ List.replicate k none), pos := s.pos + 1 }) := by
      have hi : idx [showNat e.1, showInt e.2] 1 = .ok (showInt e.2) := rfl
      simp only [tsLine, tsData, h1, tsNumber, hsp, hi, hf, h2, setItem, Option.getD_some]
      rw [if_pos (by rw [h3]; simp)]
      simp only [h3, set_replicate]
      rfl
    rw [tsLoop_step hstep, tsLoop_pairs hf es (s := { s with
        demands := some (pre ++ [some (e.2 : ℚ)] ++ List.replicate k none), pos := s.pos + 1 })
      (pre := pre ++ [some (e.2 : ℚ)]) (k := k) h1 rfl
      (by rw [List.length_append]; simp [h3]) (by simpa using hk)]
    congr 1
    simp only [List.map_cons, List.length_cons, List.length_append, List.append_assoc, List.singleton_append, List.length_nil]
    have e1 : k + 1 - (es.length + 1) = k - es.length := by omega
    have e2 : pre.length + (0 + 1) + es.length = pre.length + (es.length + 1) := by omega
    rw [e1, e2]

/-- Too many demands raise. -/
theorem tsLoop_pairs_over {env : TsEnv} (hf : ∀ z : ℤ, env.float (showInt z) = .ok z) {rest : List TsKind} : ∀ (es : List (ℕ × ℤ))
    {s : TsSt} {pre : List (Option ℚ)} {k : ℕ}, s.sec = .demands → s.demands = some (pre ++ List.replicate k none) →
    s.pos = pre.length → k < es.length →
    tsLoop env (es.map (fun e => tsKind (wPairLine e ++ ['\n'])) ++ rest) s = .error .indexError
  | [], s, pre, k, h1, h2, h3, hk => by simp at hk
  | e :: es, s, pre, 0, h1, h2, h3, hk => by
    obtain ⟨line, hl, hsp⟩ := tsKind_pair e
    rw [List.map_cons, List.cons_append, hl]
    have hstep : tsLine env (.data line) s = .error .indexError := by
      have hi : idx [showNat e.1, showInt e.2] 1 = .ok (showInt e.2) := rfl
      simp only [tsLine, tsData, h1, tsNumber, hsp, hi, hf, h2, setItem, Option.getD_some]
      rw [if_neg (by rw [h3]; simp)]
      rfl
    rw [tsLoop, hstep]
  | e :: es, s, pre, k + 1, h1, h2, h3, hk => by
    obtain ⟨line, hl, hsp⟩ := tsKind_pair e
    rw [List.map_cons, List.cons_append, hl]
    have hstep : tsLine env (.data line) s = .ok (some { s with
        demands := some (pre ++ [some (e.2 : ℚ)] ++ List.replicate k none), pos := s.pos + 1 }) := by
      have hi : idx [showNat e.1, showInt e.2] 1 = .ok (showInt e.2) := rfl
      simp only [tsLine, tsData, h1, tsNumber, hsp, hi, hf, h2, setItem, Option.getD_some]
      rw [if_pos (by rw [h3]; simp)]
      simp only [h3, set_replicate]
      rfl
    rw [tsLoop_step hstep]
    exact tsLoop_pairs_over hf es (pre := pre ++ [some (e.2 : ℚ)]) (k := k) h1 rfl
      (by rw [List.length_append]; simp [h3]) (by simpa using hk)

/-! ## The head of the file -/

/-- The state after the head of a file. -/
def tsHeadSt (m : ℕ) (C : Option ℤ) : TsSt :=
  ⟨.weights, 0, (1, 0), m - 1, C, none, none, none, some (m, fun _ _ => 0), false, some "EXPLICIT".toList,
    some "UPPER_ROW".toList, []⟩

theorem tsLine_field {env : TsEnv} {name value : List Char} {s s' : TsSt} (h : tsSetField (tsField name) value s = .ok s') :
    tsLine env (.field name value) s = .ok (some s') := by
  rw [tsLine, h]; rfl

theorem tsLoop_head {env : TsEnv} (cvrp : Bool) (c : ℤ) (L : Option ℚ) (m : ℕ) (rest : List TsKind) :
    tsLoop env ((["NAME: temporary".toList] ++
      (if cvrp then
        ["TYPE: CVRP".toList, "CAPACITY".toList ++ ':' :: ' ' :: showInt c] ++
        (if truthy L then ["DISTANCE".toList ++ ':' :: ' ' :: showInt (pyInt (L.getD 0))] else [])
      else ["TYPE: TSP".toList]) ++
      ["COMMENT: temporary CVRP or TSP problem".toList, "DIMENSION".toList ++ ':' :: ' ' :: showNat m,
        "EDGE_WEIGHT_TYPE: EXPLICIT".toList, "EDGE_WEIGHT_FORMAT: UPPER_ROW".toList, "EDGE_WEIGHT_SECTION".toList]).map
        (fun l => tsKind (l ++ ['\n'])) ++ rest) tsStart =
      tsLoop env rest (tsHeadSt m (if cvrp then some c else none)) := by
  have k1 : tsKind ("NAME: temporary".toList ++ ['\n']) = .field "NAME".toList " temporary".toList := by decide +kernel
  have k2 : tsKind ("TYPE: CVRP".toList ++ ['\n']) = .field "TYPE".toList " CVRP".toList := by decide +kernel
  have k3 : tsKind ("TYPE: TSP".toList ++ ['\n']) = .field "TYPE".toList " TSP".toList := by decide +kernel
  have k4 : tsKind ("COMMENT: temporary CVRP or TSP problem".toList ++ ['\n']) =
      .field "COMMENT".toList " temporary CVRP or TSP problem".toList := by decide +kernel
  have k5 : tsKind ("EDGE_WEIGHT_TYPE: EXPLICIT".toList ++ ['\n']) = .field "EDGE_WEIGHT_TYPE".toList " EXPLICIT".toList := by
    decide +kernel
  have k6 : tsKind ("EDGE_WEIGHT_FORMAT: UPPER_ROW".toList ++ ['\n']) =
      .field "EDGE_WEIGHT_FORMAT".toList " UPPER_ROW".toList := by decide +kernel
  have k7 : tsKind ("EDGE_WEIGHT_SECTION".toList ++ ['\n']) = .head .weights := by decide +kernel
  have k8 : tsKind ("CAPACITY".toList ++ ':' :: ' ' :: showInt c ++ ['\n']) = .field "CAPACITY".toList (' ' :: showInt c) :=
    tsKind_field ⟨by decide, by decide⟩ (by decide) (word_showInt c)
  have k9 : tsKind ("DISTANCE".toList ++ ':' :: ' ' :: showInt (pyInt (L.getD 0)) ++ ['\n']) =
      .field "DISTANCE".toList (' ' :: showInt (pyInt (L.getD 0))) :=
    tsKind_field ⟨by decide, by decide⟩ (by decide) (word_showInt _)
  have k10 : tsKind ("DIMENSION".toList ++ ':' :: ' ' :: showNat m ++ ['\n']) = .field "DIMENSION".toList (' ' :: showNat m) :=
    tsKind_field ⟨by decide, by decide⟩ (by decide) (word_show m)
  have f1 : tsField "NAME".toList = .other := by decide +kernel
  have f2 : tsField "TYPE".toList = .type := by decide +kernel
  have f3 : tsField "COMMENT".toList = .other := by decide +kernel
  have f4 : tsField "EDGE_WEIGHT_TYPE".toList = .ewt := by decide +kernel
  have f5 : tsField "EDGE_WEIGHT_FORMAT".toList = .ewf := by decide +kernel
  have f6 : tsField "CAPACITY".toList = .capacity := by decide +kernel
  have f7 : tsField "DISTANCE".toList = .other := by decide +kernel
  have f8 : tsField "DIMENSION".toList = .dimension := by decide +kernel
  have o1 : occurs "CVRP".toList " CVRP".toList = true := by decide +kernel
  have o2 : occurs "TSP".toList " TSP".toList = true := by decide +kernel
  have o3 : strip " EXPLICIT".toList = "EXPLICIT".toList := by decide +kernel
  have o4 : strip " UPPER_ROW".toList = "UPPER_ROW".toList := by decide +kernel
  have o5 : "EXPLICIT".toList ∈ tsTypes := by decide +kernel
  have o6 : ewFormat (some "UPPER_ROW".toList) = .upperRow := by decide +kernel
  have htail : ∀ C : Option ℤ, tsLoop env ((["COMMENT: temporary CVRP or TSP problem".toList,
      "DIMENSION".toList ++ ':' :: ' ' :: showNat m,
      "EDGE_WEIGHT_TYPE: EXPLICIT".toList, "EDGE_WEIGHT_FORMAT: UPPER_ROW".toList, "EDGE_WEIGHT_SECTION".toList]).map
        (fun l => tsKind (l ++ ['\n'])) ++ rest) { tsStart with C := C } = tsLoop env rest (tsHeadSt m C) := by
    intro C
    simp only [List.map_cons, List.map_nil, List.cons_append, List.nil_append, k4, k5, k6, k7, k10]
    rw [tsLoop_step (tsLine_field (s' := { tsStart with C := C }) (by rw [f3]; rfl))]
    rw [tsLoop_step (tsLine_field (s' := { tsStart with C := C, N := (m : ℤ) - 1 }) (by
      rw [f8, tsSetField, parseInt_ws (by decide), parseInt_showNat]))]
    rw [tsLoop_step (tsLine_field (s' := { tsStart with C := C, N := (m : ℤ) - 1, ewt := some "EXPLICIT".toList }) (by
      rw [f4, tsSetField, o3, if_pos o5]))]
    rw [tsLoop_step (tsLine_field (s' := { tsStart with
        C := C, N := (m : ℤ) - 1, ewt := some "EXPLICIT".toList, ewf := some "UPPER_ROW".toList }) (by
      rw [f5, tsSetField, o4]))]
    rw [tsLoop_step (s' := tsHeadSt m C)]
    simp only [tsLine, tsSetSection, o6, ijStart]
    rw [if_neg (by omega)]
    simp only [Int.sub_add_cancel, Int.toNat_natCast]
    rfl
  rw [List.map_append, List.map_append, List.append_assoc, List.append_assoc, List.map_cons, k1, List.map_nil,
    List.singleton_append, tsLoop_step (tsLine_field (s' := tsStart) (by rw [f1]; rfl))]
  cases cvrp with
  | false =>
    rw [if_neg (by simp), if_neg (by simp), List.map_cons, k3, List.map_nil, List.singleton_append,
      tsLoop_step (tsLine_field (s' := tsStart) (by rw [f2, tsSetField, o2]; simp))]
    exact htail none
  | true =>
    have hcap : ∀ r, tsLoop env ((["TYPE: CVRP".toList, "CAPACITY".toList ++ ':' :: ' ' :: showInt c].map
        fun l => tsKind (l ++ ['\n'])) ++ r) tsStart = tsLoop env r { tsStart with C := some c } := by
      intro r
      simp only [List.map_cons, List.map_nil, List.cons_append, List.nil_append, k2, k8]
      rw [tsLoop_step (tsLine_field (s' := tsStart) (by rw [f2, tsSetField, o1]; simp))]
      rw [tsLoop_step (tsLine_field (s' := { tsStart with C := some c }) (by
        rw [f6, tsSetField, parseInt_ws (by decide), parseInt_showInt]))]
    rw [if_pos rfl, if_pos rfl, List.map_append, List.append_assoc, hcap]
    by_cases hL : truthy L = true
    · rw [if_pos hL, List.map_cons, k9, List.map_nil, List.singleton_append,
        tsLoop_step (tsLine_field (s' := { tsStart with C := some c }) (by rw [f7]; rfl))]
      exact htail _
    · rw [if_neg hL]
      exact htail _

end Verif
