import Verif.Lemmas.VeRyPyMain
import Verif.Props.Algorithms
import Verif.Props.CliBatch

/-! # C84: the command line of `VeRyPy.py` -/

namespace Verif
open Spec

/-- **C84**: options in any order and number, with one path among them, mean what they should; without a path, or with
several, the command line is refused. -/
theorem C84_options {isInt : String → Bool} {items : List VpItem} (h : ∀ i ∈ items, ItemOk isInt i) :
    ((pathsOf items).length = 1 → ∃ a, vpParse isInt (itemWords items) {} = .args a ∧ Asked items a) ∧
    ((pathsOf items).length ≠ 1 → vpParse isInt (itemWords items) {} = .refused) := by
  have e := parse_items h [] {}
  rw [List.append_nil, vpParse, (asked_items items).paths] at e
  exact ⟨fun hl => ⟨_, by rw [e, if_pos hl], asked_items items⟩, fun hl => by rw [e, if_neg hl]⟩

/-- **C84**: an unknown option, an option without its value and a value that is not one of the choices are refused, and
a request for help is met, whatever follows. -/
theorem C84_refused {isInt : String → Bool} {items : List VpItem} (h : ∀ i ∈ items, ItemOk isInt i) (rest : List String) :
    (∀ w, LooksOption w → (∀ f, w ≠ flagWord f) → (∀ k, w ≠ keyWord k) → w ≠ "-h" → w ≠ "--help" →
      vpParse isInt (itemWords items ++ w :: rest) {} = .refused) ∧
    (∀ k, vpParse isInt (itemWords items ++ [keyWord k]) {} = .refused) ∧
    (∀ k v, LooksOption v ∨ ¬ Takes isInt v k → vpParse isInt (itemWords items ++ keyWord k :: v :: rest) {} = .refused) ∧
    (∀ w, w = "-h" ∨ w = "--help" → vpParse isInt (itemWords items ++ w :: rest) {} = .help) := by
  refine ⟨fun w hw hf hk h1 h2 => ?_, fun k => ?_, fun k v hv => ?_, fun w hw => ?_⟩
  · rw [parse_items h, vpParse, if_neg (by simp [dash_iff.2 hw]), if_neg (by simp [h1, h2])]
    have l1 : vpFlags.lookup w = none := by
      rw [List.lookup_eq_none_iff]
      intro x hx
      simp only [vpFlags, List.mem_cons, List.not_mem_nil, or_false] at hx
      rcases hx with rfl | rfl | rfl | rfl | rfl | rfl | rfl | rfl | rfl | rfl
      · simpa [flagWord] using hf .list
      · simpa [flagWord] using hf .minimal
      · simpa [flagWord] using hf .time
      · simpa [flagWord] using hf .cost
      · simpa [flagWord] using hf .single
      · simpa [flagWord] using hf .iinfo
      · simpa [flagWord] using hf .routes
      · simpa [flagWord] using hf .vrph
      · simpa [flagWord] using hf .recursive
      · simpa [flagWord] using hf .simulate
    have l2 : vpKeys.lookup w = none := by
      rw [List.lookup_eq_none_iff]
      intro x hx
      simp only [vpKeys, List.mem_cons, List.not_mem_nil, or_false] at hx
      rcases hx with rfl | rfl | rfl | rfl | rfl | rfl
      · simpa [keyWord] using hk .verbosity
      · simpa [keyWord] using hk .algorithm
      · simpa [keyWord] using hk .objective
      · simpa [keyWord] using hk .format
      · simpa [keyWord] using hk .forbid
      · simpa [keyWord] using hk .post
    simp only [l1, l2]
  · rw [parse_items h, parse_key]
  · rw [parse_items h, parse_key]
    simp only
    by_cases hd : vpDash v = true
    · rw [if_pos hd]
    · rw [if_neg hd, set_bad (hv.resolve_left fun hl => hd (dash_iff.2 hl))]
  · rw [parse_items h, vpParse, if_neg, if_pos hw]
    rcases hw with rfl | rfl <;> decide +kernel

/-- What the list of the heuristics should be: each that is available once, in the order of the abbreviations, and a
message for each of the others. -/
structure Spec.GoodListing (solver : Bool) (rows : List Algo) (msgs : List AlgoMsg) : Prop where
  once : ∀ a, Available solver a → rows.count a = 1
  available : ∀ a ∈ rows, Available solver a
  sorted : rows.Pairwise fun a b => a.abbrev.toList < b.abbrev.toList
  others : ∀ m, m ∈ msgs ↔ ∃ a, ¬ Available solver a ∧ m = .unavailable a

theorem listing_good (g : Bool) : GoodListing g (vpHelp g).1 (vpHelp g).2 := by
  have e1 : (vpHelp g).1 = ([.cmt, .gap, .gm, .gpl, .gps, .ims, .lr3o, .mbsa, .mj, .pi, .pn, .ps, .ps2o, .ptl, .rfcs, .si, .sn,
      .ss, .swp, .ty, .wh] : List Algo).filter fun a => g || !needsGurobi a := by cases g <;> decide +kernel
  have e2 : (vpHelp g).2 = ([.gap, .mbsa, .ptl] : List Algo).filterMap fun a => if g then none else some (.unavailable a) := by
    cases g <;> decide +kernel
  refine ⟨fun a ha => ?_, fun a ha => ?_, ?_, fun m => ?_⟩
  · rw [available_iff] at ha
    rw [e1]
    cases g <;> cases a <;> first | decide | exact absurd ha (by decide)
  · rw [e1] at ha
    rw [available_iff]
    exact (List.mem_filter.1 ha).2
  · rw [e1]
    refine List.Pairwise.filter _ ?_
    decide +kernel
  · rw [e2]
    simp only [available_iff]
    cases g
    · simp only [List.mem_filterMap, List.mem_cons, List.not_mem_nil, or_false]
      constructor
      · rintro ⟨a, h1, h2⟩
        refine ⟨a, ?_, by simpa using h2.symm⟩
        rcases h1 with rfl | rfl | rfl <;> decide
      · rintro ⟨a, h1, rfl⟩
        refine ⟨a, ?_, by simp⟩
        revert h1
        cases a <;> decide
    · simp

/-- **C84**: if the list of the heuristics is asked for, or no heuristic is named, nothing is solved and the list is
printed. Each abbreviation on it selects its heuristic and nothing else. -/
theorem C84_listing (fuel : ℕ) (w : VpWorld) :
    (∃ rows msgs, GoodListing w.gurobi rows msgs ∧
      (∀ argv, "-l" ∈ argv → vpMain fuel w [] argv = .ok (some (.listed rows msgs 1))) ∧
      ∀ items, (∀ i ∈ items, ItemOk w.isInt i) → (pathsOf items).length = 1 →
        (.flag .list ∈ items ∨ valuesOf .algorithm items = []) →
        (∀ argv, vpMain fuel w (itemWords items) argv = .ok (some (.listed rows msgs 0))) ∧
        (.flag .list ∉ items → ∀ prog, prog ≠ "-l" → vpMain fuel w [] (prog :: itemWords items) = .ok (some (.listed rows msgs 0)))) ∧
    ∀ rows msgs, GoodListing w.gurobi rows msgs → ∀ a ∈ rows, get_algorithms w.gurobi [a.abbrev] = ([a], []) := by
  refine ⟨⟨_, _, listing_good w.gurobi, fun argv hl => ?_, fun items hi hp ha => ?_⟩, fun rows msgs h a ha => ?_⟩
  · rw [vpMain, if_neg (by simp), if_pos hl]
  · obtain ⟨a, h1, h2, h3⟩ := main_asked fuel w hi hp
    have hg : vpGo fuel w a = .ok (some (.listed (vpHelp w.gurobi).1 (vpHelp w.gurobi).2 0)) := by
      rw [vpGo, if_pos]
      rcases ha with ha | ha
      · exact .inr ((h1.flags _).2 ha)
      · exact .inl (by rw [h1.algorithms, ha])
    exact ⟨fun argv => (h2 argv).trans hg, fun hl prog hpr => (h3 hl prog hpr).trans hg⟩
  · have hav := h.available a ha
    have := C61_abbreviation w.gurobi a (s := a.abbrev) rfl
    exact this.1 hav

/-- **C84** is false of the list of the heuristics: with `-l` alone the status of the process is that of a failure, while
a call of `main` with `-l` refuses it for want of a path; with a path it prints the list and the status is that of a success. -/
theorem C84_list_false (fuel : ℕ) (w : VpWorld) :
    (∃ rows msgs, vpMain fuel w [] ["VeRyPy.py", "-l"] = .ok (some (.listed rows msgs 1)) ∧
      vpMain fuel w ["-l", "A-n32-k5.vrp"] [] = .ok (some (.listed rows msgs 0))) ∧
    vpMain fuel w ["-l"] [] = .ok (some .refused) := by
  refine ⟨⟨_, _, by rw [vpMain, if_neg (by simp), if_pos (by simp)], ?_⟩, ?_⟩
  · have := ((C84_listing fuel w).1)
    obtain ⟨a, h1, h2, -⟩ := main_asked fuel w (items := [.flag .list, .path "A-n32-k5.vrp"])
      (by
        intro i hi
        simp only [List.mem_cons, List.not_mem_nil, or_false] at hi
        rcases hi with rfl | rfl
        · trivial
        · exact fun h => absurd (dash_iff.2 h) (by decide +kernel)) (by decide)
    refine (h2 []).trans ?_
    rw [vpGo, if_pos (.inr ((h1.flags _).2 (by simp)))]
  · have := (C84_options (isInt := w.isInt) (items := [.flag .list]) (by
      intro i hi
      rw [List.mem_singleton.1 hi]
      trivial)).2 (by decide)
    simp only [itemWords, flagWord] at this
    rw [vpMain, if_pos (by simp), this]

/-- **C84**: with the short output there is a line for each instance found and each heuristic selected, in this order,
up to an interrupt; the calls are made with the options that were asked for. The line is what C60 says. It does not matter
whether the options come from the command line or from a call. -/
theorem C84_lines (w : VpWorld) {items : List VpItem} (hi : ∀ i ∈ items, ItemOk w.isInt i) {p : String}
    (hp : pathsOf items = [p]) (hl : .flag .list ∉ items) (ha : valuesOf .algorithm items ≠ []) (hm : .flag .minimal ∈ items)
    (hr : (valuesOf .format items).getLast? ≠ some "ROUND") {files : List CliFile}
    (hs : w.search [p] (decide (.flag .recursive ∈ items)) = .ok files) {algos : List Algo}
    (hsel : selectAlgos w.gurobi (valuesOf .algorithm items) (valuesOf .forbid items) = .ok algos)
    (hok : ∀ t ∈ askedTasks w items files algos, TaskOk (askedOpts items) t) :
    ∃ F, ∀ fuel, F ≤ fuel → ∃ s, (∀ argv, vpMain fuel w (itemWords items) argv =
        .ok (some (.ran true (get_algorithms w.gurobi (valuesOf .algorithm items)).2 s []))) ∧
      (∀ prog, prog ≠ "-l" → vpMain fuel w [] (prog :: itemWords items) =
        .ok (some (.ran true (get_algorithms w.gurobi (valuesOf .algorithm items)).2 s []))) ∧
      List.Forall₂ (Reported (askedOpts items)) (upTo (stops (askedOpts items)) (askedTasks w items files algos)) s.reports := by
  have hasked := asked_items items
  have hruns := tasks_runs w hasked files algos
  obtain ⟨F, hF⟩ := C60_lines (o := askedOpts items) (by simp [askedOpts, hm]) (asked_round hi hr) algos.length
    (vpRuns w (items.foldl itemSet {}) files algos) (by rw [hruns]; exact hok)
  refine ⟨F, fun fuel hf => ?_⟩
  obtain ⟨s, e1, e2⟩ := hF fuel hf
  rw [hruns] at e2
  have hg : vpGo fuel w (items.foldl itemSet {}) =
      .ok (some (.ran true (get_algorithms w.gurobi (valuesOf .algorithm items)).2 s [])) := by
    rw [go_asked fuel w hi hasked hl ha (by rw [hp]; simp), hp, hs]
    simp only [hsel, e1, decide_eq_true hm]
  obtain ⟨h2, h3⟩ := main_asked' fuel w hi (by rw [hp]; rfl)
  exact ⟨s, fun argv => (h2 argv).trans hg, fun prog hpr => (h3 hl prog hpr).trans hg, e2⟩

/-- **C84**: names that are not known are reported and otherwise ignored: if there are no others, the program ends without a
line, a table or an error. -/
theorem C84_unknown (w : VpWorld) {items : List VpItem} (hi : ∀ i ∈ items, ItemOk w.isInt i) {p : String}
    (hp : pathsOf items = [p]) (hl : .flag .list ∉ items) (ha : valuesOf .algorithm items ≠ [])
    (hk : ∀ n ∈ valuesOf .algorithm items, ¬ KnownName n) (hn : valuesOf .forbid items = [])
    (hr : (valuesOf .format items).getLast? ≠ some "ROUND") {files : List CliFile}
    (hs : w.search [p] (decide (.flag .recursive ∈ items)) = .ok files) (fuel : ℕ) (argv : List String) :
    vpMain fuel w (itemWords items) argv = .ok (some (.ran (decide (.flag .minimal ∈ items))
      ((valuesOf .algorithm items).map fun n => .invalid (lowerName n)) ⟨[], [], []⟩ [])) := by
  have hnone : ∀ {l : List String}, (∀ n ∈ l, ¬ KnownName n) →
      get_algorithms w.gurobi l = ([], l.map fun n => .invalid (lowerName n)) := by
    intro l
    induction l with
    | nil => intro _; rfl
    | cons n l ih =>
      intro h
      rcases C61_name w.gurobi n with ⟨-, h2⟩ | ⟨h2, -⟩
      · rw [get_algorithms_singleton] at h2
        rw [get_algorithms, ih fun m hm => h m (by simp [hm]), h2]
        rfl
      · exact absurd h2 (h n (by simp))
  have hasked := asked_items items
  obtain ⟨h2, -⟩ := main_asked' fuel w hi (by rw [hp]; rfl)
  rw [h2, go_asked fuel w hi hasked hl ha (by rw [hp]; simp), hp, hs, hn]
  have hruns := tasks_runs w hasked files []
  have e0 : askedTasks w items files [] = [] := by simp [askedTasks]
  have hc : ∀ n, n = 0 → cliMain fuel (askedOpts items) n (vpRuns w (items.foldl itemSet {}) files []) = .ok (some (⟨[], [], []⟩, [])) := by
    rintro n rfl
    rw [cliMain, files_flat (asked_round hi hr), hruns, e0]
    simp [cliFlat]
  simp only [selectAlgos, hnone hk, List.length_nil, hc 0 rfl]

/-- **C84**, in a simulation nothing is called and the short output has a line without a solution for each heuristic and
instance. -/
theorem C84_simulate (w : VpWorld) {items : List VpItem} (hi : ∀ i ∈ items, ItemOk w.isInt i) {p : String}
    (hp : pathsOf items = [p]) (hl : .flag .list ∉ items) (ha : valuesOf .algorithm items ≠ []) (hm : .flag .minimal ∈ items)
    (hsim : .flag .simulate ∈ items) (hr : (valuesOf .format items).getLast? ≠ some "ROUND") {files : List CliFile}
    (hs : w.search [p] (decide (.flag .recursive ∈ items)) = .ok files) {algos : List Algo}
    (hsel : selectAlgos w.gurobi (valuesOf .algorithm items) (valuesOf .forbid items) = .ok algos) (fuel : ℕ) (argv : List String) :
    ∃ s, vpMain fuel w (itemWords items) argv = .ok (some (.ran true (get_algorithms w.gurobi (valuesOf .algorithm items)).2 s [])) ∧
      s.reports = files.flatMap fun f => algos.map fun a => .noLine a.abbrev f.bn false := by
  have hasked := asked_items items
  have hruns := tasks_runs w hasked files algos
  obtain ⟨h2, -⟩ := main_asked' fuel w hi (by rw [hp]; rfl)
  obtain ⟨s, e1, e2, -⟩ := flat_simulate fuel (o := askedOpts items) (by simp [askedOpts, hsim]) (askedTasks w items files algos) ⟨[], [], []⟩
  refine ⟨s, ?_, ?_⟩
  · rw [h2, go_asked fuel w hi hasked hl ha (by rw [hp]; simp), hp, hs]
    simp only [hsel, cliMain, files_flat (asked_round hi hr), hruns, e1]
    have hmin : (askedOpts items).minimal = true := by simp [askedOpts, hm]
    simp [hmin, hm]
  · rw [e2, if_pos (by simp [askedOpts, hm])]
    simp [askedTasks_names]

/-- **C84** is false of a simulation with the long output: with two heuristics or more the program ends in a `KeyError`, for
all instances. -/
theorem C84_simulate_false (w : VpWorld) {items : List VpItem} (hi : ∀ i ∈ items, ItemOk w.isInt i) {p : String}
    (hp : pathsOf items = [p]) (hl : .flag .list ∉ items) (ha : valuesOf .algorithm items ≠ []) (hm : .flag .minimal ∉ items)
    (hsim : .flag .simulate ∈ items) (hr : (valuesOf .format items).getLast? ≠ some "ROUND") {files : List CliFile}
    (hs : w.search [p] (decide (.flag .recursive ∈ items)) = .ok files) (hne : files ≠ []) {algos : List Algo}
    (hsel : selectAlgos w.gurobi (valuesOf .algorithm items) (valuesOf .forbid items) = .ok algos) (h2 : 2 ≤ algos.length)
    (fuel : ℕ) (argv : List String) : vpMain fuel w (itemWords items) argv = .error .keyError := by
  have hasked := asked_items items
  have hruns := tasks_runs w hasked files algos
  obtain ⟨g2, -⟩ := main_asked' fuel w hi (by rw [hp]; rfl)
  obtain ⟨s, e1, -, e3, e4⟩ := flat_simulate fuel (o := askedOpts items) (by simp [askedOpts, hsim]) (askedTasks w items files algos) ⟨[], [], []⟩
  rw [g2, go_asked fuel w hi hasked hl ha (by rw [hp]; simp), hp, hs]
  simp only [hsel, cliMain, files_flat (asked_round hi hr), hruns, e1]
  have hmin : (askedOpts items).minimal = false := by simp [askedOpts, hm]
  have hres : s.results ≠ [] := by
    apply e4
    left
    obtain ⟨f, files, rfl⟩ := List.exists_cons_of_ne_nil hne
    obtain ⟨a, algos, rfl⟩ := List.exists_cons_of_ne_nil (l := algos) (by rintro rfl; simp at h2)
    simp [askedTasks]
  have ht : cliTable s = .error .keyError := by
    have hk : s.known = [] := e3
    unfold cliTable
    rw [hk]
    have hd : (s.results.map fun r => r.1.1).dedup ≠ [] := by
      intro h
      obtain ⟨r, rs, hrr⟩ := List.exists_cons_of_ne_nil hres
      have : r.1.1 ∈ (s.results.map fun r => r.1.1).dedup := by rw [List.mem_dedup, hrr]; simp
      rw [h] at this
      simp at this
    obtain ⟨b, bs, hb⟩ := List.exists_cons_of_ne_nil hd
    rw [hb, List.mapM_cons]
    rfl
  simp [hmin, ht, show 1 < algos.length by omega]

/-! ## Cases -/

/-- A world with one instance of two customers, in which each call returns both of them on one route. -/
def exWorld : VpWorld where
  isInt w := decide (w.toList.all Char.isDigit)
  gurobi := false
  search ps _ := .ok (ps.map fun p => ⟨p, 3, .int, fun i j => if i = j then 0 else 2, fun i => if i = 0 then 0 else 1, some 2, none, none⟩)
  call _ _ _ _ single mk := .ret (if single && mk then some [0, 1, 2, 0] else none)

/-- `-m -1 toy -a ps -b cost -a Sweep -b K`. -/
def exItems : List VpItem :=
  [.flag .minimal, .flag .single, .path "toy", .value .algorithm "ps", .value .objective "cost", .value .algorithm "Sweep",
   .value .objective "K"]

theorem exItems_ok : ∀ i ∈ exItems, ItemOk exWorld.isInt i := by
  have h : ∀ w, vpDash w = false → ¬ LooksOption w := fun w hw hl => by rw [dash_iff.2 hl] at hw; simp at hw
  intro i hi
  simp only [exItems, List.mem_cons, List.not_mem_nil, or_false] at hi
  rcases hi with rfl | rfl | rfl | rfl | rfl | rfl | rfl
  · trivial
  · trivial
  · exact h _ (by decide +kernel)
  · exact ⟨h _ (by decide +kernel), trivial⟩
  · exact ⟨h _ (by decide +kernel), by simp [Takes]⟩
  · exact ⟨h _ (by decide +kernel), trivial⟩
  · exact ⟨h _ (by decide +kernel), by simp [Takes]⟩

example : itemWords exItems = ["-m", "-1", "toy", "-a", "ps", "-b", "cost", "-a", "Sweep", "-b", "K"] ∧ pathsOf exItems = ["toy"] ∧
    valuesOf .algorithm exItems = ["ps", "Sweep"] ∧ asksFewest exItems = true ∧ (askedOpts exItems).minimal = true ∧
    vpParse exWorld.isInt (itemWords exItems) {} = .args { on := [.minimal, .single], active := ["ps", "Sweep"], objective := "K", files := ["toy"] } ∧
    selectAlgos exWorld.gurobi (valuesOf .algorithm exItems) (valuesOf .forbid exItems) = .ok [.ps, .swp] := by decide +kernel

example : vpMain 0 exWorld (itemWords exItems) [] = .ok (some (.ran true []
    ⟨[.line "ps" "toy" true 6 1 false, .line "swp" "toy" true 6 1 false],
      [(("toy", "CW64-PS"), some 6), (("toy", Algo.name .swp), some 6)], []⟩ [])) := by decide +kernel

/-- The hypotheses of `C84_lines`. -/
example : ∃ files, exWorld.search ["toy"] (decide (.flag .recursive ∈ exItems)) = .ok files ∧ files ≠ [] ∧
    ∀ t ∈ askedTasks exWorld exItems files [.ps, .swp], TaskOk (askedOpts exItems) t := by
  refine ⟨_, rfl, by simp, fun t ht => ?_⟩
  have hp : (askedOpts exItems).post = [] := by decide +kernel
  have hc : asksFewest exItems = true := by decide +kernel
  have hs : (.flag .single ∈ exItems) := by simp [exItems]
  simp only [askedTasks, List.map_cons, List.map_nil, List.zipIdx_cons, List.zipIdx_nil, List.flatMap_cons, List.flatMap_nil,
    List.append_nil, List.mem_cons, List.not_mem_nil, or_false] at ht
  rcases ht with rfl | rfl
  all_goals
    refine ⟨by simp, by simp, fun c h => ?_, fun l h => by simp at h, fun s h => ?_, fun h => absurd hp h⟩
    · simp only [Option.some.injEq] at h; subst h; norm_num
    · have hf : some s = some [0, 1, 2, 0] := by
        rw [← h]
        have : (askedOpts exItems).simulate = false := by decide +kernel
        simp only [found, this, exWorld, hc, hs, decide_true, Bool.and_self, if_true]
        rfl
      simp only [Option.some.injEq] at hf
      subst hf
      exact ⟨by simp, by decide⟩

/-- Two heuristics in a simulation, short and long; a value that is refused; two paths. -/
example : vpMain 0 exWorld ["toy", "-a", "ps", "--simulate", "-a", "ty", "-m"] [] =
      .ok (some (.ran true [] ⟨[.noLine "ps" "toy" false, .noLine "ty" "toy" false],
        [(("toy", "CW64-PS"), none), (("toy", Algo.name .ty), none)], []⟩ [])) ∧
    vpMain 0 exWorld ["toy", "-a", "ps", "--simulate", "-a", "ty"] [] = .error .keyError ∧
    vpMain 0 exWorld ["toy", "-a", "ps", "-b", "k"] [] = .ok (some .refused) ∧
    vpMain 0 exWorld [] ["VeRyPy.py", "toy", "-a", "ps", "toy"] = .ok (some .refused) ∧
    vpMain 0 exWorld ["toy", "-a", "nosuch"] [] = .ok (some (.ran false [.invalid "nosuch"] ⟨[], [], []⟩ [])) := by decide +kernel

example : ¬ KnownName "nosuch" := fun h => absurd (known_iff.1 h) (by decide +kernel)

end Verif
