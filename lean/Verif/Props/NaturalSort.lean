import Verif.Lemmas.NaturalSort

/-! # The files to solve and their order (C70)

The specification is in `Verif/Spec/NaturalSort.lean`. -/

namespace Verif
open Spec

/-- **C70**, the order: names with no digits but `0` to `9` are sorted without exceptions: all of them are kept, none comes
after one that it is before in the natural order, and names of which none is before the other keep their places. -/
theorem C70_sorted_partial {u : CharTable} {l : List (List Char)} (h : ∀ s ∈ l, PlainName u.digit s) :
    ∃ r, natural_sort u l = .ok r ∧ r.Perm l ∧ r.Pairwise (fun a b => ¬ Before u.lower b a) ∧
      ∀ a b, [a, b].Sublist l → ¬ Before u.lower b a → [a, b].Sublist r := by
  refine ⟨_, natural_sort_ok h, ?_, ?_, fun a b hs hab => ?_⟩
  · have := (List.perm_insertionSort nameLe (l.map fun s => (keyOf u s, s))).map (·.2)
    refine this.trans ?_
    rw [List.map_map]
    exact List.Perm.of_eq (List.map_id l)
  · rw [List.pairwise_map]
    refine (List.pairwise_insertionSort nameLe (l.map fun s => (keyOf u s, s))).imp_of_mem ?_
    intro x y hx hy hxy
    obtain ⟨a, ha, rfl⟩ := List.mem_map.1 ((List.perm_insertionSort nameLe _).mem_iff.1 hx)
    obtain ⟨b, hb, rfl⟩ := List.mem_map.1 ((List.perm_insertionSort nameLe _).mem_iff.1 hy)
    rw [before_iff (h b hb) (h a ha)]
    exact not_lt.2 hxy
  · have ha : a ∈ l := hs.subset (by simp)
    have hb : b ∈ l := hs.subset (by simp)
    rw [before_iff (h b hb) (h a ha)] at hab
    have := List.pair_sublist_insertionSort (r := nameLe) (a := (keyOf u a, a)) (b := (keyOf u b, b)) (not_lt.1 hab)
      (hs.map fun s => (keyOf u s, s))
    exact this.map (·.2)

/-- The natural order is a strict order, and that none of two names is before the other is an equivalence. -/
theorem C70_order (lower : List Char → List Char) : (∀ a, ¬ Before lower a a) ∧
    (∀ a b c, Before lower a b → Before lower b c → Before lower a c) ∧
    ∀ a b c, ¬ Before lower a b → ¬ Before lower b c → ¬ Before lower a c := by
  have hp : ∀ s, PlainName (fun _ : Char => (none : Option (Option ℕ))) s := fun s c _ _ => rfl
  have e : ∀ a b, Before lower a b ↔ _ := fun a b => before_iff (u := ⟨lower, fun _ => none⟩) (hp a) (hp b)
  refine ⟨fun a => ?_, fun a b c => ?_, fun a b c => ?_⟩
  · rw [e]; exact lt_irrefl _
  · rw [e, e, e]; exact lt_trans
  · rw [e, e, e, not_lt, not_lt, not_lt]; exact fun h1 h2 => le_trans h2 h1

/-- **C70**, numbers: names that agree up to a number are in the order of these numbers, however many digits they have. -/
theorem C70_numbers (lower : List Char → List Char) {p ds es s t : List Char} (hp : ∀ c ∈ p.getLast?, ¬ Dec c) (hd : AllDigits ds)
    (he : AllDigits es) (hs : TextFirst s) (ht : TextFirst t) (h : number ds < number es) :
    Before lower (p ++ (ds ++ s)) (p ++ (es ++ t)) := by
  obtain ⟨n, hn⟩ : ∃ n, p.length ≤ n := ⟨_, le_rfl⟩
  induction n generalizing p with
  | zero =>
    have : p = [] := List.eq_nil_of_length_eq_zero (by omega)
    subst this
    exact .number (by intro c hc; simp at hc) (by intro c hc; simp at hc) hd he hs ht rfl h
  | succ n ih =>
    rcases name_cases p with h0 | ⟨v, d, q, rfl, hv, hd', hq, hl⟩
    · exact .number h0 h0 hd he hs ht rfl h
    · have hq0 : q ≠ [] := by
        rintro rfl
        rw [List.append_nil] at hp
        obtain ⟨c, hc⟩ := Option.ne_none_iff_exists'.1 (mt List.getLast?_eq_none_iff.1 hd'.1)
        refine hp c ?_ (hd'.2 c (List.mem_of_getLast? hc))
        rw [List.getLast?_append, hc]
        rfl
      have hq1 : ∀ x, TextFirst (q ++ x) := by
        intro x
        cases q with
        | nil => exact absurd rfl hq0
        | cons c q => exact hq
      have := ih (p := q) (by
        intro c hc
        refine hp c ?_
        rw [List.getLast?_append, List.getLast?_append, Option.mem_def.1 hc]
        rfl) (by omega)
      have h2 := Before.next (lower := lower) hv hv hd' hd' (hq1 (ds ++ s)) (hq1 (es ++ t)) rfl rfl this
      simpa [List.append_assoc] using h2

/-- **C70**, folders: of the files in a folder those are found that end with `.vrp`, `.tsp` or `.pickle` and are not hidden, in
this order and each kind in the natural order; each once. -/
theorem C70_folder_partial {u : CharTable} {fs : FileSystem} {p : List Char} (hd : fs.isdir p = true)
    (hslash : u.digit '/' = none) (hp : PlainName u.digit p) (hn : ∀ n ∈ fs.entries p, PlainName u.digit n) (hnd : (fs.entries p).Nodup) :
    ∃ a b c, searchPath u fs p = .ok (a ++ b ++ c, false) ∧
      (∀ f, f ∈ a ↔ ∃ n ∈ fs.entries p, ProblemName ".vrp".toList n ∧ f = inFolder p n) ∧
      (∀ f, f ∈ b ↔ ∃ n ∈ fs.entries p, ProblemName ".tsp".toList n ∧ f = inFolder p n) ∧
      (∀ f, f ∈ c ↔ ∃ n ∈ fs.entries p, ProblemName ".pickle".toList n ∧ f = inFolder p n) ∧
      ∀ l ∈ [a, b, c], l.Nodup ∧ l.Pairwise fun x y => ¬ Before u.lower y x := by
  have hplain : ∀ e, ∀ s ∈ globIn fs p e, PlainName u.digit s := by
    intro e s hs
    obtain ⟨n, h1, -, rfl⟩ := globIn_mem.1 hs
    intro c hc hdec
    unfold inFolder at hc
    split_ifs at hc
    · rcases List.mem_append.1 hc with hc | hc
      · exact hp c hc hdec
      · exact hn n h1 c hc hdec
    · rcases List.mem_append.1 hc with hc | hc
      · exact hp c hc hdec
      · rcases List.mem_cons.1 hc with rfl | hc
        · exact hslash
        · exact hn n h1 c hc hdec
  obtain ⟨a, ha, pa, sa, -⟩ := C70_sorted_partial (hplain ".vrp".toList)
  obtain ⟨b, hb, pb, sb, -⟩ := C70_sorted_partial (hplain ".tsp".toList)
  obtain ⟨c, hc, pc, sc, -⟩ := C70_sorted_partial (hplain ".pickle".toList)
  refine ⟨a, b, c, ?_, fun f => by rw [pa.mem_iff, globIn_mem], fun f => by rw [pb.mem_iff, globIn_mem],
    fun f => by rw [pc.mem_iff, globIn_mem], ?_⟩
  · unfold searchPath
    rw [if_pos hd, ha, hb, hc]
  · intro l hl
    simp only [List.mem_cons, List.not_mem_nil, or_false] at hl
    rcases hl with rfl | rfl | rfl
    · exact ⟨pa.nodup_iff.2 (globIn_nodup _ hnd), sa⟩
    · exact ⟨pb.nodup_iff.2 (globIn_nodup _ hnd), sb⟩
    · exact ⟨pc.nodup_iff.2 (globIn_nodup _ hnd), sc⟩

/-- **C70**, list files: the files named in the lines, with any blanks around them, are found in this order; lines that do not name
a file are left out. -/
theorem C70_list {u : CharTable} {fs : FileSystem} {p : List Char} {names : List (List Char × List Char × List Char)}
    (hd : fs.isdir p = false) (hf : fs.isfile p = true) (he : EndsAs u.lower ".txt".toList p)
    (hl : fs.lines p = names.map fun x => x.1 ++ (x.2.1 ++ x.2.2))
    (hn : ∀ x ∈ names, Space x.1 ∧ Trimmed x.2.1 ∧ Space x.2.2) :
    searchPath u fs p = .ok ((names.map (·.2.1)).filter fs.isfile, false) := by
  have hws : ∀ {w}, Space w → ∀ c ∈ w, isWS c = true := by
    intro w hw c hc
    rcases hw c hc with rfl | rfl | rfl | rfl <;> decide
  have hnw : ∀ {c}, ¬ Space [c] → isWS c = false := by
    intro c hc
    rw [← Bool.not_eq_true]
    intro h
    refine hc ?_
    intro x hx
    rw [List.mem_singleton] at hx
    subst hx
    unfold isWS at h
    simpa [or_assoc] using h
  have hs : (fs.lines p).map strip = names.map (·.2.1) := by
    rw [hl, List.map_map]
    refine List.map_congr_left fun x hx => ?_
    obtain ⟨h1, h2, h3⟩ := hn x hx
    show strip (x.1 ++ (x.2.1 ++ x.2.2)) = x.2.1
    rw [strip_blanks (hws h1), strip_blanks_end (hws h3)]
    cases hx2 : x.2.1 with
    | nil => rfl
    | cons a l =>
      rw [hx2] at h2
      cases hb : (a :: l).getLast? with
      | none => simp at hb
      | some b => exact strip_id (hnw (h2.1 a (by simp))) (hnw (h2.2 b hb)) hb
  unfold searchPath
  rw [if_neg (by rw [hd]; decide), if_pos, hs]
  have h1 : u.lower (lastChars 4 p) = ".txt".toList := last_ends.2 he
  rw [hf, decide_eq_true h1]
  rfl

/-- **C70**, files and anything else: a problem file in upper or lower case is found; for what is neither a folder, a list file
nor a problem file there is a message. -/
theorem C70_single {u : CharTable} {fs : FileSystem} {p : List Char} (hd : fs.isdir p = false)
    (ht : ¬ (fs.isfile p = true ∧ EndsAs u.lower ".txt".toList p)) :
    ((fs.isfile p = true ∧ ∃ e ∈ problemEnds, EndsAs u.lower e p) → searchPath u fs p = .ok ([p], false)) ∧
    (¬ (fs.isfile p = true ∧ ∃ e ∈ problemEnds, EndsAs u.lower e p) → searchPath u fs p = .ok ([], true)) := by
  have h1 : ¬ (fs.isfile p && decide (u.lower (lastChars 4 p) = ".txt".toList)) = true := by
    rw [Bool.and_eq_true, decide_eq_true_eq]
    exact fun h => ht ⟨h.1, last_ends.1 h.2⟩
  have h2 : (fs.isfile p && (decide (u.lower (lastChars 4 p) = ".vrp".toList) || decide (u.lower (lastChars 4 p) = ".tsp".toList) ||
      decide (u.lower (lastChars 7 p) = ".pickle".toList))) = true ↔
      (fs.isfile p = true ∧ ∃ e ∈ problemEnds, EndsAs u.lower e p) := by
    simp only [Bool.and_eq_true, Bool.or_eq_true, decide_eq_true_eq]
    have e1 := last_ends (lower := u.lower) (e := ".vrp".toList) (s := p)
    have e2 := last_ends (lower := u.lower) (e := ".tsp".toList) (s := p)
    have e3 := last_ends (lower := u.lower) (e := ".pickle".toList) (s := p)
    have l1 : ".vrp".toList.length = 4 := by decide
    have l2 : ".tsp".toList.length = 4 := by decide
    have l3 : ".pickle".toList.length = 7 := by decide
    rw [l1] at e1; rw [l2] at e2; rw [l3] at e3
    rw [e1, e2, e3]
    unfold problemEnds
    simp only [List.mem_cons, List.not_mem_nil, or_false, exists_eq_or_imp, exists_eq_left, or_assoc]
  unfold searchPath
  rw [if_neg (by rw [hd]; decide), if_neg h1]
  constructor
  · intro h; rw [if_pos (h2.2 h)]
  · intro h; rw [if_neg (fun h' => h (h2.1 h'))]

/-- **C70**, several paths: the files found for them are put together in the order of the paths, and there is a message for each
path of which there is one. -/
theorem C70_paths {u : CharTable} {fs : FileSystem} {l : List (List Char)} {F : List Char → List (List Char)} {W : List Char → Bool}
    (h : ∀ p ∈ l, searchPath u fs p = .ok (F p, W p)) : searchPaths u fs l = .ok (l.flatMap F, l.filter W) := by
  induction l with
  | nil => rfl
  | cons p l ih =>
    unfold searchPaths
    rw [h p (by simp), ih fun q hq => h q (by simp [hq])]
    dsimp only
    rw [List.flatMap_cons, List.filter_cons]

/-! ## Examples and limits -/

/-- The characters of the examples: letters in upper and lower case, a superscript and a digit of another script. -/
def charTable : CharTable :=
  ⟨List.map Char.toLower, fun c => if c = '²' then some none else if c = '٣' then some (some 3) else none⟩

/-- **C70** is false for names with other digits: between numbers a superscript is a ValueError, and a digit of another script makes
a number where other names have a text, a TypeError. -/
theorem C70_digits_false : natural_sort charTable ["1²3.vrp".toList] = .error .valueError ∧
    natural_sort charTable ["1٣2.vrp".toList, "1a2.vrp".toList] = .error .typeError := by
  constructor <;> decide +kernel

/-- Files with names in upper case and a hidden one. -/
def upperFiles : FileSystem where
  isdir p := decide (p = "d".toList)
  isfile p := decide (p = "d/A.VRP".toList) || decide (p = "d/.b.vrp".toList)
  entries _ := ["A.VRP".toList, ".b.vrp".toList]
  lines _ := []

/-- **C70** is false for endings in upper case and for hidden files: they are found if they are named, but not in a folder, and
there is no message. -/
theorem C70_case_false : searchPath charTable upperFiles "d".toList = .ok ([], false) ∧
    searchPaths charTable upperFiles ["d/A.VRP".toList, "d/.b.vrp".toList] = .ok (["d/A.VRP".toList, "d/.b.vrp".toList], []) := by
  constructor <;> decide +kernel

/-- The instances of a well-known set in the order of their sizes. -/
example : natural_sort charTable ["X-n101-k25.vrp".toList, "x-N20-k3.vrp".toList, "X-n9-k10.vrp".toList, "X-n9-k9.vrp".toList] =
    .ok ["X-n9-k9.vrp".toList, "X-n9-k10.vrp".toList, "x-N20-k3.vrp".toList, "X-n101-k25.vrp".toList] := by decide +kernel

/-- The hypotheses of `C70_sorted_partial`. -/
example : ∀ s ∈ ["X-n101-k25.vrp".toList, "x-N20-k3.vrp".toList], PlainName charTable.digit s := by
  unfold PlainName Dec
  decide +kernel

/-- The hypotheses of `C70_numbers`. -/
example : (∀ c ∈ "X1-n".toList.getLast?, ¬ Dec c) ∧ AllDigits "9".toList ∧ AllDigits "101".toList ∧ TextFirst "-k3".toList ∧
    number "9".toList < number "101".toList := by
  unfold Dec AllDigits TextFirst Dec number
  decide +kernel

/-- A folder and a list file. -/
def someFiles : FileSystem where
  isdir p := decide (p = "d".toList)
  isfile p := decide (p ∈ ["l.TXT".toList, "d/a10.vrp".toList, "d/a9.vrp".toList, "d/a1.tsp".toList])
  entries _ := ["a10.vrp".toList, "a1.tsp".toList, "notes.doc".toList, "a9.vrp".toList]
  lines _ := [" d/a9.vrp\n".toList, "\n".toList, "none.vrp\n".toList, "d/a1.tsp".toList]

/-- The hypotheses of `C70_folder_partial` and its answer. -/
example : someFiles.isdir "d".toList = true ∧ charTable.digit '/' = none ∧ PlainName charTable.digit "d".toList ∧
    (∀ n ∈ someFiles.entries "d".toList, PlainName charTable.digit n) ∧ (someFiles.entries "d".toList).Nodup ∧
    searchPath charTable someFiles "d".toList = .ok (["d/a9.vrp".toList, "d/a10.vrp".toList, "d/a1.tsp".toList], false) := by
  refine ⟨by decide +kernel, by decide +kernel, ?_, ?_, by decide +kernel, by decide +kernel⟩
  · unfold PlainName Dec
    decide +kernel
  · unfold PlainName Dec
    decide +kernel

/-- The hypotheses of `C70_list` and of `C70_single`, and their answers. -/
example : EndsAs charTable.lower ".txt".toList "l.TXT".toList ∧
    searchPath charTable someFiles "l.TXT".toList = .ok (["d/a9.vrp".toList, "d/a1.tsp".toList], false) ∧
    Space " ".toList ∧ Trimmed "d/a9.vrp".toList ∧ Space "\n".toList ∧
    EndsAs charTable.lower ".vrp".toList "d/a9.vrp".toList ∧
    searchPaths charTable someFiles ["d/a9.vrp".toList, "x".toList, "d/a1.tsp".toList] =
      .ok (["d/a9.vrp".toList, "d/a1.tsp".toList], ["x".toList]) := by
  refine ⟨⟨"l".toList, ".TXT".toList, by decide +kernel, Or.inl (by decide +kernel), by decide +kernel⟩, by decide +kernel, ?_, ?_, ?_,
    ⟨"d/a9".toList, ".vrp".toList, by decide +kernel, Or.inl (by decide +kernel), by decide +kernel⟩, by decide +kernel⟩
  · unfold Space; decide +kernel
  · unfold Trimmed Space; decide +kernel
  · unfold Space; decide +kernel

end Verif
