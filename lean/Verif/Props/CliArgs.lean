import Verif.Spec.CliArgs
import Verif.Props.Cli

/-! # C81: the command line of the algorithms

The specification is in `Verif/Spec/CliArgs.lean`. -/

namespace Verif
open Spec

/-- A word that is no option changes nothing. -/
theorem caFlag_plain {u : CharTable} {f : CaFlags} {a b : List Char} (h : a ∉ optionWords) : caFlag u f a b = .ok f := by
  simp only [optionWords, List.mem_cons, List.not_mem_nil, or_false, not_or] at h
  obtain ⟨h1, h2, h3, h4, h5, h6⟩ := h
  unfold caFlag caNumbers
  rw [if_neg h1, if_neg h2]
  dsimp only
  rw [if_neg h3, if_neg h4, if_neg h5, if_neg h6]

theorem caScan_plain {u : CharTable} {f : CaFlags} {a : List Char} {t : List (List Char)} (h : a ∉ optionWords) (ht : t ≠ []) :
    caScan u f (a :: t) = caScan u f t := by
  cases t with
  | nil => exact absurd rfl ht
  | cons b t => rw [caScan, caFlag_plain h]

/-- What an option does. -/
def caDo (u : CharTable) (f : CaFlags) : CaOption → CaFlags
  | .verbosity _ n => { f with verbosity := n }
  | .runs _ n => { f with best_of_n := n }
  | .single => { f with single := true }
  | .time => { f with timed := true }
  | .log p => { f with logfile := some p }
  | .target s => caTarget u f s

theorem caScan_option {u : CharTable} {f : CaFlags} {o : CaOption} {t : List (List Char)} (h : o.Plain u) (ht : t ≠ []) :
    caScan u f (o.words ++ t) = caScan u (caDo u f o) t := by
  obtain ⟨b, t, rfl⟩ : ∃ b t', t = b :: t' := by
    cases t with
    | nil => exact absurd rfl ht
    | cons b t => exact ⟨b, t, rfl⟩
  cases o with
  | verbosity s n =>
    show caScan u f ("-v".toList :: s :: b :: t) = _
    have : caFlag u f "-v".toList s = .ok { f with verbosity := n } := by
      unfold caFlag caNumbers
      rw [if_pos rfl, h.1]
      rfl
    rw [caScan, this]
    exact caScan_plain h.2 (by simp)
  | runs s n =>
    show caScan u f ("-n".toList :: s :: b :: t) = _
    have : caFlag u f "-n".toList s = .ok { f with best_of_n := n } := by
      unfold caFlag caNumbers
      rw [if_neg (by decide), if_pos rfl, h.1]
      rfl
    rw [caScan, this]
    exact caScan_plain h.2 (by simp)
  | single => rfl
  | time => rfl
  | log p =>
    show caScan u f ("-l".toList :: p :: b :: t) = _
    rw [caScan, show caFlag u f "-l".toList p = .ok { f with logfile := some p } from rfl]
    exact caScan_plain h (by simp)
  | target s =>
    show caScan u f ("-b".toList :: s :: b :: t) = _
    rw [caScan, show caFlag u f "-b".toList s = .ok (caTarget u f s) from rfl]
    exact caScan_plain h (by simp)

theorem caScan_options {u : CharTable} : ∀ {os : List CaOption} {f : CaFlags} {p : List Char}, (∀ o ∈ os, o.Plain u) →
    caScan u f (os.flatMap CaOption.words ++ [p]) = .ok (os.foldl (caDo u) f)
  | [], f, p, _ => rfl
  | o :: os, f, p, h => by
    rw [List.flatMap_cons, List.append_assoc, caScan_option (h o (by simp)) (by simp)]
    exact caScan_options fun o' ho' => h o' (by simp [ho'])

theorem lastGiven_snoc {α : Type} (g : CaOption → Option α) (d : α) (os : List CaOption) (o : CaOption) :
    lastGiven g d (os ++ [o]) = (g o).getD (lastGiven g d os) := by
  unfold lastGiven
  rw [List.filterMap_append]
  cases h : g o <;> simp [h]

theorem heard_foldl (u : CharTable) (os : List CaOption) : Heard u os (os.foldl (caDo u) {}) := by
  induction os using List.reverseRecOn with
  | nil => exact ⟨by simp, by simp, rfl, rfl, rfl, rfl, rfl⟩
  | append_singleton os o ih =>
    rw [List.foldl_append]
    simp only [List.foldl_cons, List.foldl_nil]
    generalize os.foldl (caDo u) {} = f at ih
    have hv := ih.verbosity
    have hr := ih.runs
    have hl := ih.log
    have ht := ih.target
    have hs := ih.single
    have hti := ih.time
    have hu := ih.unknown
    cases o with
    | verbosity s n =>
      exact ⟨by simpa [caDo] using hs, by simpa [caDo] using hti, by rw [lastGiven_snoc]; rfl, by rw [lastGiven_snoc]; exact hr,
        by rw [lastGiven_snoc]; exact hl, by rw [lastGiven_snoc]; exact ht, by simpa [caDo] using hu⟩
    | runs s n =>
      exact ⟨by simpa [caDo] using hs, by simpa [caDo] using hti, by rw [lastGiven_snoc]; exact hv, by rw [lastGiven_snoc]; rfl,
        by rw [lastGiven_snoc]; exact hl, by rw [lastGiven_snoc]; exact ht, by simpa [caDo] using hu⟩
    | single =>
      exact ⟨by simp [caDo], by simpa [caDo] using hti, by rw [lastGiven_snoc]; exact hv, by rw [lastGiven_snoc]; exact hr,
        by rw [lastGiven_snoc]; exact hl, by rw [lastGiven_snoc]; exact ht, by simpa [caDo] using hu⟩
    | time =>
      exact ⟨by simpa [caDo] using hs, by simp [caDo], by rw [lastGiven_snoc]; exact hv, by rw [lastGiven_snoc]; exact hr,
        by rw [lastGiven_snoc]; exact hl, by rw [lastGiven_snoc]; exact ht, by simpa [caDo] using hu⟩
    | log p =>
      exact ⟨by simpa [caDo] using hs, by simpa [caDo] using hti, by rw [lastGiven_snoc]; exact hv, by rw [lastGiven_snoc]; exact hr,
        by rw [lastGiven_snoc]; rfl, by rw [lastGiven_snoc]; exact ht, by simpa [caDo] using hu⟩
    | target s =>
      have hk : (caTarget u f s).single = f.single ∧ (caTarget u f s).timed = f.timed ∧ (caTarget u f s).verbosity = f.verbosity ∧
          (caTarget u f s).best_of_n = f.best_of_n ∧ (caTarget u f s).logfile = f.logfile ∧
          (caTarget u f s).minimize_K = (targetOf u s).getD f.minimize_K ∧
          (caTarget u f s).unknown = f.unknown ++ if targetOf u s = none then [u.lower s] else [] := by
        unfold caTarget targetOf
        dsimp only
        by_cases h1 : u.lower s = "cost".toList ∨ u.lower s = "c".toList
        · have h2 : u.lower s ∉ ["vehicles".toList, "k".toList] := by
            rcases h1 with h1 | h1 <;> rw [h1] <;> decide
          have h3 : u.lower s ∈ ["cost".toList, "c".toList] := by simpa using h1
          simp only [if_pos h1, if_neg h2, if_pos h3]
          simp
        · have h3 : u.lower s ∉ ["cost".toList, "c".toList] := by simpa using h1
          by_cases h4 : u.lower s = "vehicles".toList ∨ u.lower s = "k".toList
          · have h2 : u.lower s ∈ ["vehicles".toList, "k".toList] := by simpa using h4
            simp only [if_neg h1, if_pos h4, if_pos h2]
            simp
          · have h2 : u.lower s ∉ ["vehicles".toList, "k".toList] := by simpa using h4
            simp only [if_neg h1, if_neg h4, if_neg h2, if_neg h3]
            simp
      obtain ⟨k1, k2, k3, k4, k5, k6, k7⟩ := hk
      refine ⟨?_, ?_, ?_, ?_, ?_, ?_, ?_⟩
      · show (caTarget u f s).single = true ↔ _
        rw [k1, hs]; simp
      · show (caTarget u f s).timed = true ↔ _
        rw [k2, hti]; simp
      · rw [lastGiven_snoc]; exact k3.trans hv
      · rw [lastGiven_snoc]; exact k4.trans hr
      · rw [lastGiven_snoc]; exact k5.trans hl
      · rw [lastGiven_snoc]
        refine k6.trans ?_
        rw [ht]
      · rw [List.filterMap_append, ← hu]
        refine k7.trans ?_
        congr 1
        by_cases h : targetOf u s = none <;> simp [h]

/-- **C81**, the options: in front of the last argument, in any order and any number; the last value that is given counts. -/
theorem C81_options (u : CharTable) (prog p : List Char) (os : List CaOption) (hp : prog ∉ optionWords) (ho : ∀ o ∈ os, o.Plain u) :
    ∃ f, caScan u {} (prog :: os.flatMap CaOption.words ++ [p]) = .ok f ∧ Heard u os f := by
  refine ⟨_, ?_, heard_foldl u os⟩
  rw [List.cons_append, caScan_plain hp (by simp)]
  exact caScan_options ho

/-- The solution of the runs on a file. -/
theorem solve_ok {i : CliInst} {mk : Bool} {n : ℕ} {v : ℤ} {runs : ℕ → RunOut} (h : RunsWell i mk n runs) :
    ∃ m shown, BestRun i mk n runs m ∧ Printed i v (some m) shown ∧
      read_and_solve i mk n v runs = .ok (.ret m (cost i.D m) (cost i.Dc m) shown) := by
  obtain ⟨ms, m, shown, h1, h2, h3, h4⟩ := C59_best i h.plain mk n v runs h.ret h.found h.routes fun _ => ⟨h.places, h.nodes⟩
  exact ⟨m, shown, ⟨ms, h1, h2⟩, h3, h4⟩

theorem caFiles_ok {read : List Char → Py CliInst} {algo : CliInst → Bool → Bool → ℕ → RunOut} {f : CaFlags} :
    ∀ {ps : List (List Char)}, (∀ p ∈ ps, ∃ i, read p = .ok i ∧ RunsWell i f.minimize_K f.best_of_n (algo i f.single f.minimize_K)) →
    ∃ es, caFiles read algo f ps = .ok (es, false) ∧ List.Forall₂ (fun p e => ∃ i m shown, read p = .ok i ∧
      BestRun i f.minimize_K f.best_of_n (algo i f.single f.minimize_K) m ∧ Printed i f.verbosity (some m) shown ∧
      e = .solved p (.ret m (cost i.D m) (cost i.Dc m) shown)) ps es
  | [], _ => ⟨[], rfl, .nil⟩
  | p :: ps, h => by
    obtain ⟨i, hi, hw⟩ := h p (by simp)
    obtain ⟨m, shown, g1, g2, g3⟩ := solve_ok (v := f.verbosity) hw
    obtain ⟨es, e1, e2⟩ := caFiles_ok (ps := ps) fun q hq => h q (by simp [hq])
    refine ⟨_, ?_, .cons ⟨i, m, shown, hi, g1, g2, rfl⟩ e2⟩
    rw [caFiles, hi]
    dsimp only
    rw [g3]
    dsimp only
    rw [e1]

/-- **C81**, files: the files that the last argument stands for are solved one after the other with the options that were written. For each
file the first best solution of the runs is shown. -/
theorem C81_files (u : CharTable) (fs : FileSystem) (gen : ℕ → CliInst) (read : List Char → Py CliInst)
    (algo : CliInst → Bool → Bool → ℕ → RunOut) (prog p : List Char) (os : List CaOption) (hp : prog ∉ optionWords)
    (ho : ∀ o ∈ os, o.Plain u) (hh : ∀ w ∈ prog :: os.flatMap CaOption.words ++ [p], w ∉ ["-h".toList, "--help".toList])
    (hn : caNumber u p = .ok none) {files : List (List Char)} (hs : searchPath u fs p = .ok (files, false)) (hf : files ≠ [])
    (hw : ∀ f, Heard u os f → ∀ q ∈ files, ∃ i, read q = .ok i ∧
      RunsWell i f.minimize_K f.best_of_n (algo i f.single f.minimize_K)) :
    ∃ f es, Heard u os f ∧ caCli u fs gen read algo (prog :: os.flatMap CaOption.words ++ [p]) = .ok (es, false) ∧
      List.Forall₂ (fun q e => ∃ i m shown, read q = .ok i ∧
        BestRun i f.minimize_K f.best_of_n (algo i f.single f.minimize_K) m ∧ Printed i f.verbosity (some m) shown ∧
        e = .solved q (.ret m (cost i.D m) (cost i.Dc m) shown)) files es := by
  obtain ⟨f, h1, h2⟩ := C81_options u prog p os hp ho
  obtain ⟨es, g1, g2⟩ := caFiles_ok (hw f h2)
  refine ⟨f, es, h2, ?_, g2⟩
  unfold caCli
  rw [show (prog :: os.flatMap CaOption.words ++ [p]).getLast? = some p from List.getLast?_concat ..]
  dsimp only
  rw [h1]
  dsimp only
  rw [hn]
  dsimp only
  unfold caPath
  have : searchPaths u fs [p] = .ok (files, []) := by
    unfold searchPaths
    rw [hs]
    simp [searchPaths]
  rw [this]
  dsimp only
  rw [if_neg, g1]
  · rfl
  · rintro (h | h | h)
    · exact hf h
    · exact hh _ h (by simp)
    · exact hh _ h (by simp)

theorem forall2_right {ss ms : List (List ℕ)} (h : List.Forall₂ NormalForm ss ms) {m : List ℕ} (hm : m ∈ ms) :
    ∃ s ∈ ss, NormalForm s m := by
  induction h with
  | nil => simp at hm
  | cons q _ ih =>
    rcases List.mem_cons.1 hm with rfl | hm
    · exact ⟨_, List.mem_cons_self, q⟩
    · obtain ⟨s, q1, q2⟩ := ih hm
      exact ⟨s, List.mem_cons_of_mem _ q1, q2⟩

/-- **C81**, a random problem: the first best solution of the runs is shown. Missing: the program should stop then. It takes the number
for a path as well, so a message that it is none and the usage follow. -/
theorem C81_random_partial (u : CharTable) (fs : FileSystem) (gen : ℕ → CliInst) (read : List Char → Py CliInst)
    (algo : CliInst → Bool → Bool → ℕ → RunOut) (prog p : List Char) (os : List CaOption) (hp : prog ∉ optionWords)
    (ho : ∀ o ∈ os, o.Plain u) {N : ℕ} (hn : caNumber u p = .ok (some N)) (hd : fs.isdir p = false) (hfile : fs.isfile p = false)
    (hw : ∀ f, Heard u os f → RunsWell (gen N) f.minimize_K f.best_of_n (algo (gen N) f.single f.minimize_K)) :
    ∃ f m st, Heard u os f ∧ BestRun (gen N) f.minimize_K f.best_of_n (algo (gen N) f.single f.minimize_K) m ∧
      Shows (gen N).N (gen N).D (gen N).Dc (gen N).d (gen N).C (gen N).L (0 < f.verbosity) m st ∧
      caCli u fs gen read algo (prog :: os.flatMap CaOption.words ++ [p]) = .ok ([.random st, .refused p, .usage], false) := by
  obtain ⟨f, h1, h2⟩ := C81_options u prog p os hp ho
  have hw := hw f h2
  obtain ⟨ms, best, g1, g2, g3⟩ := loop_ok (i := gen N) (mk := f.minimize_K) (n := 1) (v := f.verbosity)
    (runs := algo (gen N) f.single f.minimize_K) (List.range f.best_of_n) []
    (ms := []) (best := none) rfl (fun k hk => hw.ret k (List.mem_range.1 hk)) (fun hm k hk => hw.routes hm k (List.mem_range.1 hk))
  simp only [List.nil_append, List.append_nil, bestOfLoop] at g2 g3
  match best, g2, g3 with
  | none, g2, _ =>
    exfalso
    obtain ⟨k, hk, s, hs⟩ := hw.found
    simp only [RunInv] at g2
    subst g2
    have : s ∈ (List.range f.best_of_n).filterMap fun k => given (algo (gen N) f.single f.minimize_K k) :=
      List.mem_filterMap.2 ⟨k, List.mem_range.2 hk, hs⟩
    cases hl : (List.range f.best_of_n).filterMap fun k => given (algo (gen N) f.single f.minimize_K k) with
    | nil => rw [hl] at this; simp at this
    | cons a t => rw [hl] at g1; cases g1
  | some (m, x, K), g2, g3 =>
    obtain ⟨s, hs, hsm⟩ : ∃ s ∈ (List.range f.best_of_n).filterMap fun k => given (algo (gen N) f.single f.minimize_K k),
        NormalForm s m := by
      obtain ⟨⟨-, pre, post, e, -⟩, -, -⟩ := g2
      have : m ∈ ms := by rw [e]; simp
      exact forall2_right g1 this
    obtain ⟨k, hk, hks⟩ := List.mem_filterMap.1 hs
    have hends : DepotEnds m := by
      rw [hsm.tour]
      exact depotEnds_tour _
    obtain ⟨st, e1, e2⟩ := statistics_ok (D := (gen N).D) hw.plain hends (normal_count hsm) (N := (gen N).N) (fun y hy => by
      rcases normal_mem hsm y hy with rfl | h
      · exact hw.places
      · exact hw.nodes k (List.mem_range.1 hk) s hks y h) (decide (0 < f.verbosity))
    refine ⟨f, m, st, h2, ⟨ms, g1, g2.1⟩, by simpa using e2, ?_⟩
    have hr : caRandom (gen N) f.minimize_K f.best_of_n f.verbosity (algo (gen N) f.single f.minimize_K) = .ok st := by
      unfold caRandom
      rw [g3]
      exact e1
    have hpath : searchPaths u fs [p] = .ok ([], [p]) := by
      unfold searchPaths searchPath
      rw [hd, hfile]
      simp [searchPaths]
    unfold caCli
    rw [show (prog :: os.flatMap CaOption.words ++ [p]).getLast? = some p from List.getLast?_concat ..]
    dsimp only
    rw [h1]
    dsimp only
    rw [hn]
    dsimp only
    rw [hr]
    dsimp only
    unfold caPath
    rw [hpath]
    dsimp only
    rw [if_pos (.inl rfl)]
    rfl

/-- **C81**: without a file, a folder or a number the usage is shown and nothing is solved. -/
theorem C81_usage (u : CharTable) (fs : FileSystem) (gen : ℕ → CliInst) (read : List Char → Py CliInst)
    (algo : CliInst → Bool → Bool → ℕ → RunOut) (prog p : List Char) (os : List CaOption) (hp : prog ∉ optionWords)
    (ho : ∀ o ∈ os, o.Plain u) (hn : caNumber u p = .ok none) (hd : fs.isdir p = false) (hfile : fs.isfile p = false) :
    caCli u fs gen read algo (prog :: os.flatMap CaOption.words ++ [p]) = .ok ([.refused p, .usage], false) := by
  obtain ⟨f, h1, h2⟩ := C81_options u prog p os hp ho
  have hpath : searchPaths u fs [p] = .ok ([], [p]) := by
    unfold searchPaths searchPath
    rw [hd, hfile]
    simp [searchPaths]
  unfold caCli
  rw [show (prog :: os.flatMap CaOption.words ++ [p]).getLast? = some p from List.getLast?_concat ..]
  dsimp only
  rw [h1]
  dsimp only
  rw [hn]
  dsimp only
  unfold caPath
  rw [hpath]
  dsimp only
  rw [if_pos (.inl rfl)]
  rfl

/-! ## Examples and failures -/

/-- The characters `A` to `Z` have small ones; no other digits. -/
def caTable : CharTable := ⟨fun s => s.map fun c => if 'A' ≤ c ∧ c ≤ 'Z' then Char.ofNat (c.toNat + 32) else c, fun _ => none⟩

/-- A place with one file. -/
def caPlace : FileSystem := ⟨fun _ => false, fun p => decide (p = "a.vrp".toList), fun _ => [], fun _ => []⟩

/-- The words of a text. -/
def caWords (l : List String) : List (List Char) := l.map String.toList

/-- The problem is that on the line; three runs as in C59. -/
def caRun (runs : ℕ → RunOut) (l : List String) : Py (List CaEvent × Bool) :=
  caCli caTable caPlace (fun _ => cliLine) (fun _ => .ok cliLine) (fun _ _ _ => runs) (caWords l)

/-- Options are written as options. -/
example : (∀ o ∈ [CaOption.runs "3".toList 3, .target "K".toList, .verbosity "0".toList 0, .log "out".toList, .single], o.Plain caTable) ∧
    [CaOption.runs "3".toList 3, .target "K".toList, .verbosity "0".toList 0, .log "out".toList, .single].flatMap CaOption.words =
      caWords ["-n", "3", "-b", "K", "-v", "0", "-l", "out", "-1"] := by
  constructor
  · intro o ho
    simp only [List.mem_cons, List.not_mem_nil, or_false] at ho
    rcases ho with rfl | rfl | rfl | rfl | rfl
    · exact ⟨by decide +kernel, by decide +kernel⟩
    · show "K".toList ∉ optionWords
      decide +kernel
    · exact ⟨by decide +kernel, by decide +kernel⟩
    · show "out".toList ∉ optionWords
      decide +kernel
    · trivial
  · decide +kernel

example : caRun cliThree ["prog", "-n", "3", "-v", "0", "a.vrp"] = .ok ([.solved "a.vrp".toList (.ret [0, 1, 2, 0, 3, 4, 0] 12 12
    (some ⟨[0, 1, 2, 0, 3, 4, 0], true, true, true, 2, none, some 12⟩))], false) := by decide +kernel

example : RunsWell cliLine false 3 cliThree := by
  refine ⟨cliLine_plain, by decide, ?_, ⟨1, by norm_num, _, rfl⟩, by simp, ?_⟩
  · rintro (_ | _ | k) _ <;> exact ⟨_, rfl⟩
  · rintro (_ | _ | k) _ s hs <;> simp [cliThree, given] at hs <;> subst hs <;> decide

/-- **C81** fails for a random problem: after the solution comes a message about a path and the usage, as for a wrong call. -/
theorem C81_random_false : caRun cliThree ["prog", "-n", "3", "-v", "0", "4"] =
    .ok ([.random ⟨[0, 1, 2, 0, 3, 4, 0], true, true, true, 2, none, some 12⟩, .refused "4".toList, .usage], false) := by
  decide +kernel

/-- **C81** fails for an interrupt of a random problem: it is not passed on, unlike that of a file. -/
theorem C81_interrupt_false : ∃ runs : ℕ → RunOut, runs 0 = .interrupted (some [0, 1, 2, 0, 3, 4, 0]) ∧
    (∃ es, caRun runs ["prog", "4"] = .ok (es, false)) ∧ ∃ es, caRun runs ["prog", "a.vrp"] = .ok (es, true) :=
  ⟨fun _ => .interrupted (some [0, 1, 2, 0, 3, 4, 0]), rfl,
    ⟨[.random ⟨[0, 1, 2, 0, 3, 4, 0], true, true, true, 2, none, some 12⟩, .refused "4".toList, .usage], by decide +kernel⟩,
    ⟨[.solved "a.vrp".toList (.interrupted (some ⟨[0, 1, 2, 0, 3, 4, 0], true, true, true, 2, none, some 12⟩))], by decide +kernel⟩⟩

/-- **C81** fails for an algorithm without a solution: an interrupt of the first run of a random problem that hands over nothing ends in
a `TypeError`; a file ends in the interrupt. -/
theorem C81_nothing_false : caRun (fun _ => .interrupted none) ["prog", "4"] = .error .typeError ∧
    caRun (fun _ => .interrupted none) ["prog", "a.vrp"] = .ok ([.solved "a.vrp".toList (.interrupted none)], true) := by
  decide +kernel

/-- **C81** fails for values that look like options: a log file with the name `-1` asks for a single iteration as well, and an option
behind the file is taken for the file. -/
theorem C81_value_false : caScan caTable {} (caWords ["prog", "-l", "-1", "a.vrp"]) =
      .ok { logfile := some "-1".toList, single := true } ∧
    caRun cliThree ["prog", "a.vrp", "-1"] = .ok ([.refused "-1".toList, .usage], false) := by
  decide +kernel

end Verif
