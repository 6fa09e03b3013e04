import Verif.Spec.VeRyPyMain
import Verif.Lemmas.CliFlat

/-! # Lemmas about the command line of `VeRyPy.py` -/

namespace Verif
open Spec

theorem dash_iff {w : String} : vpDash w = true ↔ LooksOption w := by
  unfold vpDash LooksOption
  have h : w = "-" ↔ w.toList = ['-'] := by
    constructor
    · rintro rfl; decide
    · intro h; exact String.toList_inj.1 (by rw [h]; decide)
  rw [Bool.and_eq_true, decide_eq_true_eq, decide_eq_true_eq, ne_eq, h]
  rcases w.toList with _ | ⟨a, _ | ⟨b, l⟩⟩
  · simp
  · simp
  · simp

theorem flag_dash (f : VpFlag) : vpDash (flagWord f) = true ∧ flagWord f ≠ "-h" ∧ flagWord f ≠ "--help" ∧
    vpFlags.lookup (flagWord f) = some f := by
  cases f <;> decide +kernel

theorem key_dash (k : VpKey) : vpDash (keyWord k) = true ∧ keyWord k ≠ "-h" ∧ keyWord k ≠ "--help" ∧
    vpFlags.lookup (keyWord k) = none ∧ vpKeys.lookup (keyWord k) = some k := by
  cases k <;> decide +kernel

/-- What an item does to the arguments. -/
def itemSet (a : VpArgs) : VpItem → VpArgs
  | .flag f => { a with on := a.on ++ [f] }
  | .value .verbosity v => { a with verbosity := v }
  | .value .algorithm v => { a with active := a.active ++ [v] }
  | .value .objective v => { a with objective := v }
  | .value .format v => { a with format := some v }
  | .value .forbid v => { a with forbid := a.forbid ++ [v] }
  | .value .post v => { a with post := a.post ++ [v] }
  | .path p => { a with files := a.files ++ [p] }

theorem set_ok {isInt : String → Bool} {k : VpKey} {v : String} (h : Takes isInt v k) (a : VpArgs) :
    vpSet isInt k v a = some (itemSet a (.value k v)) := by
  cases k <;> simp only [Takes] at h <;> simp [vpSet, itemSet, h]

theorem set_bad {isInt : String → Bool} {k : VpKey} {v : String} (h : ¬ Takes isInt v k) (a : VpArgs) :
    vpSet isInt k v a = none := by
  cases k <;> simp only [Takes, not_true] at h <;> simp [vpSet] <;> simpa using h

theorem parse_flag (isInt : String → Bool) (f : VpFlag) (ws : List String) (a : VpArgs) :
    vpParse isInt (flagWord f :: ws) a = vpParse isInt ws (itemSet a (.flag f)) := by
  obtain ⟨h1, h2, h3, h4⟩ := flag_dash f
  rw [vpParse, if_neg (by simp [h1]), if_neg (by simp [h2, h3]), h4]
  rfl

theorem parse_path (isInt : String → Bool) {p : String} (hp : ¬ LooksOption p) (ws : List String) (a : VpArgs) :
    vpParse isInt (p :: ws) a = vpParse isInt ws (itemSet a (.path p)) := by
  have h : vpDash p = false := by rw [← Bool.not_eq_true, dash_iff]; exact hp
  rw [vpParse, if_pos (by simp [h])]
  rfl

theorem parse_key (isInt : String → Bool) (k : VpKey) (ws : List String) (a : VpArgs) :
    vpParse isInt (keyWord k :: ws) a = match ws with
      | [] => .refused
      | v :: ws => if vpDash v then .refused else match vpSet isInt k v a with
        | none => .refused
        | some a => vpParse isInt ws a := by
  obtain ⟨h1, h2, h3, h4, h5⟩ := key_dash k
  rw [vpParse, if_neg (by simp [h1]), if_neg (by simp [h2, h3]), h4, h5]
  cases ws <;> rfl

theorem parse_items {isInt : String → Bool} : ∀ {items : List VpItem}, (∀ i ∈ items, ItemOk isInt i) → ∀ (rest : List String) (a : VpArgs),
    vpParse isInt (itemWords items ++ rest) a = vpParse isInt rest (items.foldl itemSet a)
  | [], _, _, _ => rfl
  | i :: t, h, rest, a => by
    have ih := fun a => parse_items (fun j hj => h j (List.mem_cons_of_mem _ hj)) rest a (items := t)
    have hi := h i (by simp)
    cases i with
    | flag f => rw [itemWords, List.cons_append, parse_flag, ih, List.foldl_cons]
    | path p => rw [itemWords, List.cons_append, parse_path isInt hi, ih, List.foldl_cons]
    | value k v =>
      have hd : vpDash v = false := by rw [← Bool.not_eq_true, dash_iff]; exact hi.1
      rw [itemWords, List.cons_append, List.cons_append, parse_key]
      simp only [hd, Bool.false_eq_true, if_false, set_ok hi.2, ih, List.foldl_cons]

theorem items_fields : ∀ (items : List VpItem) (a : VpArgs), let b := items.foldl itemSet a
    (∀ f, f ∈ b.on ↔ f ∈ a.on ∨ .flag f ∈ items) ∧
    b.verbosity = ((valuesOf .verbosity items).getLast?).getD a.verbosity ∧
    b.active = a.active ++ valuesOf .algorithm items ∧
    b.objective = ((valuesOf .objective items).getLast?).getD a.objective ∧
    b.format = ((valuesOf .format items).getLast?).or a.format ∧
    b.forbid = a.forbid ++ valuesOf .forbid items ∧
    b.post = a.post ++ valuesOf .post items ∧
    b.files = a.files ++ pathsOf items
  | [], a => by simp [valuesOf, pathsOf]
  | i :: t, a => by
    obtain ⟨h1, h2, h3, h4, h5, h6, h7, h8⟩ := items_fields t (itemSet a i)
    simp only [List.foldl_cons]
    cases i with
    | flag f =>
      refine ⟨fun g => ?_, h2, h3, h4, h5, h6, h7, h8⟩
      rw [h1]
      simp [itemSet, or_assoc]
    | path p =>
      refine ⟨fun g => by rw [h1]; simp [itemSet], h2, h3, h4, h5, h6, h7, ?_⟩
      rw [h8]; simp [itemSet, pathsOf]
    | value k v =>
      cases k
      all_goals
        refine ⟨fun g => by rw [h1]; simp [itemSet], ?_, ?_, ?_, ?_, ?_, ?_, ?_⟩
        · rw [h2]; simp [itemSet, valuesOf, List.getLast?_cons]
        · rw [h3]; simp [itemSet, valuesOf]
        · rw [h4]; simp [itemSet, valuesOf, List.getLast?_cons]
        · rw [h5]; simp only [itemSet, valuesOf, List.filterMap_cons]
          first
            | rfl
            | (simp only [List.getLast?_cons]
               cases (t.filterMap _).getLast? <;> rfl)
            | simp [List.getLast?_cons]
        · rw [h6]; simp [itemSet, valuesOf]
        · rw [h7]; simp [itemSet, valuesOf]
        · rw [h8]; simp [itemSet, pathsOf]

theorem asked_items (items : List VpItem) : Asked items (items.foldl itemSet {}) := by
  obtain ⟨h1, h2, h3, h4, h5, h6, h7, h8⟩ := items_fields items {}
  exact ⟨fun f => by rw [h1]; simp, h2, by simpa using h3, h4, by simpa using h5, by simpa using h6, by simpa using h7,
    by simpa using h8⟩

theorem words_ne {items : List VpItem} (h : (pathsOf items).length = 1) : itemWords items ≠ [] := by
  rcases items with _ | ⟨_ | _ | _, t⟩
  · simp [pathsOf] at h
  all_goals simp [itemWords]

theorem words_list {isInt : String → Bool} : ∀ {items : List VpItem}, (∀ i ∈ items, ItemOk isInt i) → .flag .list ∉ items →
    "-l" ∉ itemWords items
  | [], _, _ => by simp [itemWords]
  | i :: t, h, hl => by
    have ih := words_list (fun j hj => h j (List.mem_cons_of_mem _ hj)) (fun hm => hl (List.mem_cons_of_mem _ hm)) (items := t)
    have hi := h i (by simp)
    have hd : LooksOption "-l" := dash_iff.1 (by decide +kernel)
    have hv : ∀ v, ¬ LooksOption v → "-l" ≠ v := by rintro v hv rfl; exact hv hd
    cases i with
    | flag f =>
      have : "-l" ≠ flagWord f := by
        cases f
        · exact absurd (List.mem_cons_self ..) hl
        all_goals decide
      simp [itemWords, this, ih]
    | path p => simp [itemWords, hv p hi, ih]
    | value k v =>
      have : "-l" ≠ keyWord k := by cases k <;> decide
      simp [itemWords, this, hv v hi.1, ih]

theorem main_asked' (fuel : ℕ) (w : VpWorld) {items : List VpItem} (hi : ∀ i ∈ items, ItemOk w.isInt i)
    (hp : (pathsOf items).length = 1) :
    (∀ argv, vpMain fuel w (itemWords items) argv = vpGo fuel w (items.foldl itemSet {})) ∧
    (.flag .list ∉ items → ∀ prog, prog ≠ "-l" → vpMain fuel w [] (prog :: itemWords items) = vpGo fuel w (items.foldl itemSet {})) := by
  have e : vpParse w.isInt (itemWords items) {} = .args (items.foldl itemSet {}) := by
    have e := parse_items hi [] {}
    rwa [List.append_nil, vpParse, (asked_items items).paths, if_pos hp] at e
  refine ⟨fun argv => ?_, fun hl prog hpr => ?_⟩
  · rw [vpMain, if_pos (words_ne hp), e]
  · have hne := words_ne hp
    rw [vpMain, if_neg (by simp), if_neg (by simp [Ne.symm hpr, words_list hi hl]), if_neg (by simp [hne]), List.tail_cons, e]

theorem main_asked (fuel : ℕ) (w : VpWorld) {items : List VpItem} (hi : ∀ i ∈ items, ItemOk w.isInt i)
    (hp : (pathsOf items).length = 1) : ∃ a, Asked items a ∧
    (∀ argv, vpMain fuel w (itemWords items) argv = vpGo fuel w a) ∧
    (.flag .list ∉ items → ∀ prog, prog ≠ "-l" → vpMain fuel w [] (prog :: itemWords items) = vpGo fuel w a) :=
  ⟨_, asked_items items, main_asked' fuel w hi hp⟩

theorem mem_values {k : VpKey} {v : String} {items : List VpItem} (h : v ∈ valuesOf k items) : .value k v ∈ items := by
  obtain ⟨i, h1, h2⟩ := List.mem_filterMap.1 h
  cases i with
  | flag f => simp at h2
  | path p => simp at h2
  | value k' v' =>
    simp only [Option.ite_none_right_eq_some, Option.some.injEq] at h2
    obtain ⟨rfl, rfl⟩ := h2
    exact h1

theorem value_takes {isInt : String → Bool} {items : List VpItem} (hi : ∀ i ∈ items, ItemOk isInt i) {k : VpKey} {v : String}
    (h : v ∈ valuesOf k items) : Takes isInt v k := (hi _ (mem_values h)).2

theorem opts_asked {isInt : String → Bool} {items : List VpItem} (hi : ∀ i ∈ items, ItemOk isInt i) {a : VpArgs} (h : Asked items a) :
    vpOpts a = askedOpts items := by
  unfold vpOpts askedOpts
  rw [h.format, h.post]
  simp only [h.flags]
  congr 1
  · cases hv : (valuesOf .format items).getLast? with
    | none => rfl
    | some v =>
      rcases value_takes hi (List.mem_of_getLast? hv) with rfl | rfl | rfl
      · rfl
      · rfl
      · rfl
  · have hp := fun v hv => value_takes hi (k := .post) (v := v) hv
    generalize valuesOf .post items = l at hp
    induction l with
    | nil => rfl
    | cons v l ih =>
      rw [List.map_cons, ← ih fun v hv => hp v (by simp [hv])]
      rcases hp v (by simp) with rfl | rfl <;> rfl

theorem asked_round {isInt : String → Bool} {items : List VpItem} (hi : ∀ i ∈ items, ItemOk isInt i)
    (hr : (valuesOf .format items).getLast? ≠ some "ROUND") : (askedOpts items).fmt ≠ some .round := by
  simp only [askedOpts]
  cases hv : (valuesOf .format items).getLast? with
  | none => simp
  | some v =>
    rw [hv] at hr
    rcases value_takes hi (List.mem_of_getLast? hv) with rfl | rfl | rfl
    · exact absurd rfl hr
    · decide
    · decide

theorem fewest_asked {items : List VpItem} {a : VpArgs} (h : Asked items a) : vpMinimizeK a = asksFewest items := by
  unfold vpMinimizeK asksFewest
  rw [h.objective]
  cases (valuesOf .objective items).getLast? with
  | none => decide
  | some v => simp

theorem tasks_runs (w : VpWorld) {items : List VpItem} {a : VpArgs} (h : Asked items a) (files : List CliFile) (algos : List Algo) :
    tasks (vpRuns w a files algos) = askedTasks w items files algos := by
  unfold tasks vpRuns askedTasks
  simp only [fewest_asked h, h.flags, List.mapIdx_eq_zipIdx_map, List.flatMap_map, List.map_map]
  rfl

theorem go_asked (fuel : ℕ) (w : VpWorld) {items : List VpItem} (hi : ∀ i ∈ items, ItemOk w.isInt i) {a : VpArgs} (h : Asked items a)
    (hl : .flag .list ∉ items) (ha : valuesOf .algorithm items ≠ []) (hp : pathsOf items ≠ []) :
    vpGo fuel w a =
    match w.search (pathsOf items) (decide (.flag .recursive ∈ items)) with
    | .error e => .error e
    | .ok files =>
      match selectAlgos w.gurobi (valuesOf .algorithm items) (valuesOf .forbid items) with
      | .error e => .error e
      | .ok algos =>
        match cliMain fuel (askedOpts items) algos.length (vpRuns w a files algos) with
        | .error e => .error e
        | .ok none => .ok none
        | .ok (some (s, t)) =>
          .ok (some (.ran (decide (.flag .minimal ∈ items)) (get_algorithms w.gurobi (valuesOf .algorithm items)).2 s t)) := by
  rw [vpGo, if_neg (by rw [h.algorithms, h.flags]; simp [ha, hl]), if_neg (by rw [h.paths]; simpa using hp), opts_asked hi h,
    h.paths, h.algorithms, h.forbid]
  simp only [h.flags]
  rcases w.search (pathsOf items) (decide (.flag .recursive ∈ items)) with e | files
  · rfl
  · rcases selectAlgos w.gurobi (valuesOf .algorithm items) (valuesOf .forbid items) with e | algos
    · rfl
    · rcases cliMain fuel (askedOpts items) algos.length (vpRuns w a files algos) with e | _ | ⟨s, t⟩ <;> rfl

theorem dictSet_ne {κ α : Type} [DecidableEq κ] (k : κ) (v : α) (r : List (κ × α)) : dictSet k v r ≠ [] := by
  cases r with
  | nil => simp [dictSet]
  | cons x r =>
    rw [dictSet]
    split <;> simp

theorem flat_simulate (fuel : ℕ) {o : CliOpts} (ho : o.simulate = true) : ∀ (ts : List Task) (s : CliSt),
    ∃ s', cliFlat fuel o ts s = .ok (some s') ∧
      s'.reports = (if o.minimal then s.reports ++ ts.map fun t => .noLine t.2.1.1 t.1.bn false else s.reports) ∧
      s'.known = s.known ∧ (ts ≠ [] ∨ s.results ≠ [] → s'.results ≠ [])
  | [], s => ⟨s, rfl, by simp, rfl, by simp⟩
  | t :: ts, s => by
    have hone : ∃ s1, cliOne fuel o t.1 (usedD o t.1) (dcOf o t.1) t.2.1 t.2.2 s = .ok (some (s1, false)) ∧
        s1.reports = (if o.minimal then s.reports ++ [.noLine t.2.1.1 t.1.bn false] else s.reports) ∧ s1.known = s.known ∧
        s1.results ≠ [] := by
      simp only [cliOne, cliCall, ho, if_true]
      refine ⟨_, rfl, ?_, ?_, dictSet_ne _ _ _⟩ <;> (dsimp only; split <;> rfl)
    obtain ⟨s1, e1, e2, e3, e4⟩ := hone
    obtain ⟨s', h1, h2, h3, h4⟩ := flat_simulate fuel ho ts s1
    refine ⟨s', ?_, ?_, h3.trans e3, fun _ => h4 (.inr e4)⟩
    · rw [cliFlat, e1]
      exact h1
    · rw [h2, e2]
      cases o.minimal <;> simp

theorem askedTasks_names (w : VpWorld) (items : List VpItem) (files : List CliFile) (algos : List Algo) :
    ((askedTasks w items files algos).map fun t => Report.noLine t.2.1.1 t.1.bn false) =
      files.flatMap fun f => algos.map fun a => .noLine a.abbrev f.bn false := by
  unfold askedTasks
  rw [List.map_flatMap]
  simp only [List.map_map]
  have h1 : ∀ (f : CliFile), (algos.map fun a => Report.noLine a.abbrev f.bn false) =
      algos.zipIdx.map fun a => Report.noLine a.1.abbrev f.bn false := by
    intro f
    conv_lhs => rw [← List.zipIdx_map_fst 0 algos]
    rw [List.map_map]
    rfl
  conv_rhs => rw [← List.zipIdx_map_fst 0 files]
  rw [List.flatMap_map]
  simp only [h1]
  rfl

end Verif
