import Verif.Spec.Algorithms
import Mathlib.Tactic.IntervalCases
import Mathlib.Data.List.Basic

/-!
# C61: names select the heuristics they stand for
-/

namespace Verif
open Spec

/-! ## Lemmas -/

theorem lowerName_toList (s : String) : (lowerName s).toList = s.toList.map Char.toLower := by
  simp [lowerName]

theorem lowerName_eq_iff {s t : String} : lowerName s = lowerName t ↔ SameName s t := by
  unfold SameName
  rw [← lowerName_toList, ← lowerName_toList]
  exact String.toList_inj.symm

theorem lookup_isSome {α : Type} (l : List (String × α)) (s : String) : (l.lookup s).isSome ↔ ∃ x ∈ l, x.1 = s := by
  induction l with
  | nil => simp
  | cons a t ih =>
    obtain ⟨k, v⟩ := a
    by_cases h : s = k
    · simp [List.lookup, h]
    · have : (s == k) = false := by simpa using h
      simp [List.lookup, this, ih]
      intro e; exact (h e.symm).elim

theorem lookup_mem {α : Type} {l : List (String × α)} {s : String} {v : α} (h : l.lookup s = some v) : (s, v) ∈ l := by
  induction l with
  | nil => simp at h
  | cons a t ih =>
    obtain ⟨k, w⟩ := a
    by_cases e : s = k
    · subst e; simp [List.lookup] at h; simp [h]
    · have e' : (s == k) = false := by simpa using e
      simp only [List.lookup, e'] at h
      exact List.mem_cons_of_mem _ (ih h)

theorem aliases_lower : ∀ x ∈ algo_name_aliases, lowerName x.1 = x.1 := by decide +kernel

theorem names_aliases : ∀ x ∈ algo_name_aliases, (∃ a ∈ allAlgos, x.1 ∈ namesOf a) ∨ x.1 ∈ groupNames := by decide +kernel

theorem aliases_names (a : Algo) : ∀ n ∈ namesOf a, ∃ x ∈ algo_name_aliases, x.1 = n := by cases a <;> decide +kernel

theorem aliases_groups : ∀ n ∈ groupNames, ∃ x ∈ algo_name_aliases, x.1 = n := by decide +kernel

theorem known_iff {s : String} : KnownName s ↔ (algo_name_aliases.lookup (lowerName s)).isSome := by
  rw [lookup_isSome]
  have back : ∀ {n : String}, (∃ x ∈ algo_name_aliases, x.1 = n) → SameName s n → ∃ x ∈ algo_name_aliases, x.1 = lowerName s := by
    rintro n ⟨x, hx, rfl⟩ h
    exact ⟨x, hx, by rw [lowerName_eq_iff.2 h, aliases_lower x hx]⟩
  constructor
  · rintro (⟨a, n, hn, h⟩ | ⟨n, hn, h⟩)
    · exact back (aliases_names a n hn) h
    · exact back (aliases_groups n hn) h
  · rintro ⟨x, hx, h⟩
    have e : SameName s x.1 := lowerName_eq_iff.1 (by rw [aliases_lower x hx, h])
    rcases names_aliases x hx with ⟨a, -, ha⟩ | ha
    · exact .inl ⟨a, x.1, ha, e⟩
    · exact .inr ⟨x.1, ha, e⟩

theorem get_algorithms_singleton (g : Bool) (n : String) : get_algorithms g [n] = algosOf g n := by
  simp [get_algorithms]

theorem available_iff {g : Bool} {a : Algo} : Available g a ↔ (g || !needsGurobi a) = true := by
  unfold Available solverAlgos
  cases g <;> cases a <;> decide

/-! ## The theorems -/

/-- **C61**: the names are looked up one by one, in their order; the answer and the messages for one do not
depend on the others. -/
theorem C61_each (g : Bool) (xs ys : List String) :
    (get_algorithms g (xs ++ ys)).1 = (get_algorithms g xs).1 ++ (get_algorithms g ys).1 ∧
    (get_algorithms g (xs ++ ys)).2 = (get_algorithms g xs).2 ++ (get_algorithms g ys).2 := by
  induction xs with
  | nil => simp [get_algorithms]
  | cons n ns ih => simp [get_algorithms, ih, List.append_assoc]

/-- **C61**: the case of the letters does not matter. -/
theorem C61_case (g : Bool) {xs ys : List String} (h : List.Forall₂ SameName xs ys) :
    get_algorithms g xs = get_algorithms g ys := by
  induction h with
  | nil => rfl
  | cons h _ ih =>
    have e : ∀ {s t : String}, SameName s t → algosOf g s = algosOf g t := by
      intro s t h
      unfold algosOf
      rw [lowerName_eq_iff.2 h]
    simp only [get_algorithms, ih, e h]

/-- **C61**: a name that is not known selects nothing and is reported; a known one selects one heuristic, all of
them or all but the plain ones, as far as they are available, each once, and reports those that are not. -/
theorem C61_name (g : Bool) (s : String) :
    (¬ KnownName s ∧ get_algorithms g [s] = ([], [.invalid (lowerName s)])) ∨
    (KnownName s ∧ ∃ want : List Algo,
      ((∃ a, want = [a]) ∨ want = allAlgos ∨ want = allAlgos.filter fun a => !plainAlgos.contains a) ∧
      (get_algorithms g [s]).1.Nodup ∧
      (∀ a, a ∈ (get_algorithms g [s]).1 ↔ a ∈ want ∧ Available g a) ∧
      ∀ m, m ∈ (get_algorithms g [s]).2 ↔ ∃ a ∈ want, ¬ Available g a ∧ m = .unavailable a) := by
  rw [get_algorithms_singleton, known_iff]
  unfold algosOf
  cases h : algo_name_aliases.lookup (lowerName s) with
  | none => left; exact ⟨by simp, rfl⟩
  | some sel =>
    right
    simp only
    unfold algosFor
    refine ⟨by simp, (algoTests.filter (algoTest sel)).map (·.1), ?_, ?_, ?_, ?_⟩
    · cases sel with
      | one a => left; exact ⟨a, by cases a <;> decide +kernel⟩
      | all => right; left; decide +kernel
      | classical => right; right; decide +kernel
    · cases g <;> (cases sel with
      | one a => cases a <;> decide +kernel
      | all => decide +kernel
      | classical => decide +kernel)
    · intro a
      simp only [List.mem_filter, available_iff]
    · intro m
      simp only [List.mem_map, List.mem_filter, available_iff]
      constructor
      · rintro ⟨a, ⟨h1, h2⟩, rfl⟩; exact ⟨a, h1, by simpa using h2, rfl⟩
      · rintro ⟨a, h1, h2, rfl⟩; exact ⟨a, ⟨h1, by simpa using h2⟩, rfl⟩

/-- **C61**: the abbreviation of each heuristic, in any case of letters, selects this heuristic and nothing else. -/
theorem C61_abbreviation (g : Bool) (a : Algo) {s : String} (h : SameName s a.abbrev) :
    (Available g a → get_algorithms g [s] = ([a], [])) ∧
    (¬ Available g a → get_algorithms g [s] = ([], [.unavailable a])) := by
  rw [C61_case g (List.Forall₂.cons h .nil), available_iff]
  cases g <;> cases a <;> decide +kernel

/-- **C61**: each of the names of a heuristic, in any case of letters, selects this heuristic and nothing else. The one
exception is "mj76-si" (`C61_displayed_false`). -/
theorem C61_names_partial (g : Bool) (a : Algo) {n s : String} (hn : n ∈ namesOf a) (hx : n ≠ "mj76-si") (h : SameName s n) :
    (Available g a → get_algorithms g [s] = ([a], [])) ∧
    (¬ Available g a → get_algorithms g [s] = ([], [.unavailable a])) := by
  rw [C61_case g (List.Forall₂.cons h .nil), available_iff]
  revert n
  have key : ∀ n ∈ namesOf a, n ≠ "mj76-si" → ((g || !needsGurobi a) = true → get_algorithms g [n] = ([a], [])) ∧
      (¬ (g || !needsGurobi a) = true → get_algorithms g [n] = ([], [.unavailable a])) := by
    cases g <;> cases a <;> decide +kernel
  intro n hn hx _
  exact key n hn hx

/-- **C61**: "all" selects each heuristic that is available exactly once, "classical" and "classic" those of them that
are not plain procedures, in the same order. -/
theorem C61_all (g : Bool) :
    (∀ a, (get_algorithms g ["all"]).1.count a = if g = true ∨ a ∉ solverAlgos then 1 else 0) ∧
    (get_algorithms g ["classical"]).1 = ((get_algorithms g ["all"]).1.filter fun a => !plainAlgos.contains a) ∧
    get_algorithms g ["classic"] = get_algorithms g ["classical"] := by
  refine ⟨fun a => ?_, ?_, ?_⟩
  · cases g <;> cases a <;> decide +kernel
  · cases g <;> decide +kernel
  · cases g <;> decide +kernel

/-- **C61**: without the solver the same heuristics are selected but for those that need it, and each of these
is reported as often as it was asked for. -/
theorem C61_solver (names : List String) :
    (get_algorithms false names).1 = (get_algorithms true names).1.filter (fun a => !solverAlgos.contains a) ∧
    ∀ a ∈ solverAlgos, (get_algorithms false names).2.count (.unavailable a) = (get_algorithms true names).1.count a := by
  have key : ∀ n, (algosOf false n).1 = (algosOf true n).1.filter (fun a => !solverAlgos.contains a) ∧
      ∀ a ∈ solverAlgos, (algosOf false n).2.count (.unavailable a) = (algosOf true n).1.count a := by
    intro n
    unfold algosOf
    cases h : algo_name_aliases.lookup (lowerName n) with
    | none => simp only [List.filter_nil]; simp
    | some sel =>
      simp only
      cases sel with
      | one a => cases a <;> decide +kernel
      | all => decide +kernel
      | classical => decide +kernel
  induction names with
  | nil => simp [get_algorithms]
  | cons n ns ih =>
    refine ⟨?_, fun a ha => ?_⟩
    · simp only [get_algorithms, List.filter_append, ih.1, (key n).1]
    · simp only [get_algorithms, List.count_append, ih.2 a ha, (key n).2 a ha]

/-- The heuristics have distinct abbreviations and distinct names. -/
theorem C61_distinct (a b : Algo) : (a.abbrev = b.abbrev → a = b) ∧ (a.name = b.name → a = b) := by
  cases a <;> cases b <;> decide +kernel

theorem forbidden_spec (fb : List String) :
    (∀ ss, forbiddenAlgos fb = .ok ss → ∀ sel, sel ∈ ss ↔ ∃ n ∈ fb, algo_name_aliases.lookup n = some sel) ∧
    (forbiddenAlgos fb = .error .keyError ∨ ∃ ss, forbiddenAlgos fb = .ok ss) ∧
    ((∃ n ∈ fb, algo_name_aliases.lookup n = none) ↔ forbiddenAlgos fb = .error .keyError) := by
  induction fb with
  | nil => simp [forbiddenAlgos]
  | cons n ns ih =>
    obtain ⟨i1, i2, i3⟩ := ih
    unfold forbiddenAlgos
    cases h : algo_name_aliases.lookup n with
    | none =>
      refine ⟨by simp, by simp, ?_⟩
      simp only [iff_true]
      exact ⟨n, by simp, h⟩
    | some sel =>
      rcases i2 with e | ⟨ss, e⟩
      · simp only [e]
        refine ⟨by simp, by simp, ?_⟩
        obtain ⟨m, hm, hm'⟩ := i3.2 e
        simp only [iff_true]
        exact ⟨m, by simp [hm], hm'⟩
      · simp only [e]
        refine ⟨?_, by simp, ?_⟩
        · intro ss' hs
          injection hs with hs
          subst hs
          intro sel'
          simp [h, i1 ss e sel', eq_comm]
        · have : ¬ ∃ n ∈ ns, algo_name_aliases.lookup n = none := by rw [i3, e]; simp
          push Not at this
          constructor
          · rintro ⟨x, hx, hx'⟩
            rcases List.mem_cons.1 hx with rfl | hx
            · rw [h] at hx'; cases hx'
            · exact absurd hx' (this x hx)
          · intro e'; cases e'

/-- The name as the option to forbid heuristics must have it: in lower case, of a single heuristic. -/
def Spec.ForbidName (s : String) : Prop := lowerName s = s ∧ ∃ a, get_algorithms true [s] = ([a], [])

/-- **C61**, the selection by the command line: the heuristics asked for without those of the names to forbid,
in their order, if the latter are names in lower case of single heuristics. -/
theorem C61_forbid_partial (g : Bool) (active : List String) {forbid : List String} (h : ∀ n ∈ forbid, ForbidName n) :
    ∃ r, selectAlgos g active forbid = .ok r ∧ r.Sublist (get_algorithms g active).1 ∧
      ∀ a, r.count a = if a ∈ (get_algorithms true forbid).1 then 0 else (get_algorithms g active).1.count a := by
  have look : ∀ n ∈ forbid, ∃ a, algo_name_aliases.lookup n = some (.one a) ∧ algosOf true n = ([a], []) := by
    intro n hn
    obtain ⟨h1, a, h2⟩ := h n hn
    rw [get_algorithms_singleton] at h2
    have h3 := h2
    unfold algosOf at h2
    rw [h1] at h2
    cases e : algo_name_aliases.lookup n with
    | none => rw [e] at h2; simp at h2
    | some sel =>
      rw [e] at h2
      simp only at h2
      cases sel with
      | one b =>
        have : algosOf true n = ([b], []) := by
          unfold algosOf; rw [h1, e]; simp only; clear h2 h3 e; cases b <;> decide +kernel
        exact ⟨b, rfl, this⟩
      | all => exact absurd (show (algosFor true .all).1.length = 1 by rw [h2]; rfl) (by decide +kernel)
      | classical => exact absurd (show (algosFor true .classical).1.length = 1 by rw [h2]; rfl) (by decide +kernel)
  have mem : ∀ a, a ∈ (get_algorithms true forbid).1 ↔ ∃ n ∈ forbid, algo_name_aliases.lookup n = some (.one a) := by
    intro a
    clear h
    induction forbid with
    | nil => simp [get_algorithms]
    | cons n ns ih =>
      obtain ⟨b, h1, h2⟩ := look n (by simp)
      have ih := ih fun m hm => look m (by simp [hm])
      simp only [get_algorithms, h2, List.mem_append, ih, List.mem_cons, exists_eq_or_imp, h1,
        Option.some.injEq, AlgoSel.one.injEq, List.not_mem_nil, or_false]
      constructor
      · rintro (h | h)
        exacts [.inl h.symm, .inr h]
      · rintro (h | h)
        exacts [.inl h.symm, .inr h]
  unfold selectAlgos
  cases forbid with
  | nil => exact ⟨_, rfl, List.Sublist.refl _, fun a => by simp [get_algorithms]⟩
  | cons m ms =>
    obtain ⟨f1, f2, f3⟩ := forbidden_spec (m :: ms)
    rcases f2 with e | ⟨ss, e⟩
    · obtain ⟨n, hn, hn'⟩ := f3.2 e
      obtain ⟨a, ha, -⟩ := look n hn
      rw [ha] at hn'; simp at hn'
    · rw [e]
      refine ⟨_, rfl, List.filter_sublist, fun a => ?_⟩
      have hc : ss.contains (AlgoSel.one a) = true ↔ a ∈ (get_algorithms true (m :: ms)).1 := by
        rw [List.contains_iff_mem, f1 ss e, mem]
      by_cases ha : a ∈ (get_algorithms true (m :: ms)).1
      · rw [if_pos ha, List.count_eq_zero]
        simp [List.mem_filter]
        intro _; simpa using hc.2 ha
      · rw [if_neg ha]
        apply List.count_filter
        rw [← hc] at ha
        simpa using ha

/-- **C61 is false** of the names to forbid: another case of letters or an unknown name is a `KeyError`, and to
forbid "all" or "classical" has no effect at all. -/
theorem C61_forbid_false :
    selectAlgos true ["PS", "mj"] ["PS"] = .error .keyError ∧
    (∀ g active n ns, n ∈ ns → algo_name_aliases.lookup n = none → selectAlgos g active ns = .error .keyError) ∧
    ∀ g active, selectAlgos g active ["all"] = .ok (get_algorithms g active).1 ∧
      selectAlgos g active ["classical"] = .ok (get_algorithms g active).1 := by
  refine ⟨by decide +kernel, ?_, ?_⟩
  · intro g active n ns hn h
    have := (forbidden_spec ns).2.2.1 ⟨n, hn, h⟩
    cases ns with
    | nil => simp at hn
    | cons m ms => simp only [selectAlgos, this]
  · intro g active
    have e1 : forbiddenAlgos ["all"] = .ok [.all] := by decide +kernel
    have e2 : forbiddenAlgos ["classical"] = .ok [.classical] := by decide +kernel
    simp only [selectAlgos, e1, e2]
    simp

/-- **C61 is false** of the names that the package itself displays: nine of them select their heuristic, the other
twelve are not known. "MJ76-SI", listed with the names of Mole and Jameson, selects the insertion without their
improvement. -/
theorem C61_displayed_false :
    (∀ a, a ∈ ([.ps, .ss, .ims, .cmt, .swp, .wh, .gm, .rfcs, .gap] : List Algo) → get_algorithms true [a.name] = ([a], [])) ∧
    (∀ a, a ∉ ([.ps, .ss, .ims, .cmt, .swp, .wh, .gm, .rfcs, .gap] : List Algo) → ¬ KnownName a.name) ∧
    get_algorithms true ["MJ76-SI"] = ([.si], []) := by
  refine ⟨fun a => ?_, fun a => ?_, by decide +kernel⟩
  · cases a <;> decide +kernel
  · rw [known_iff]
    cases a <;> decide +kernel

/-- A heuristic that is asked for twice is run twice; the table of results has one entry for both (C60). -/
theorem C61_twice : (get_algorithms true ["ps", "All"]).1.count .ps = 2 := by decide +kernel

/-! ## Instances -/

example : get_algorithms true ["FosterRyan"] = ([.ptl], []) :=
  (C61_names_partial true .ptl (n := "fosterryan") (by decide) (by decide) (by unfold SameName; decide +kernel)).1 (.inl rfl)

example : get_algorithms false ["CW", "clark", "Petal", "twophase"] =
    ([.ps, .cmt], [.invalid "clark", .unavailable .ptl]) := by decide +kernel

example : SameName "CW64-ps" "cw64-PS" := by unfold SameName; decide +kernel

example : KnownName "TYAGI" := known_iff.2 (by decide +kernel)

example : ¬ KnownName "tyagi " := fun h => absurd (known_iff.1 h) (by decide +kernel)

example : ForbidName "petal" := ⟨by decide +kernel, .ptl, by decide +kernel⟩

example : selectAlgos true ["mj", "petal", "sweep"] ["fr76-ptl"] = .ok [.mj, .swp] := by decide +kernel

end Verif
