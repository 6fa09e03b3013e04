import Verif.Lemmas.CliFlat

/-! # C60: many instances and algorithms -/

namespace Verif
open Spec

/-- C60. With the short output there is exactly one line for each instance and algorithm, in the order of the files and
the algorithms, up to and with the first that the user interrupts; an algorithm that fails does not stop the others. A line tells
the right algorithm and instance, whether the solution that is reported is feasible (each customer once, capacity and length kept),
its own quality and number of routes, and has a star if and only if it was interrupted; without a solution there is a
line that tells so. The solution is that of the algorithm in normal form or, after the post-optimization, one with
the same customers on each route and no route longer. -/
theorem C60_lines {o : CliOpts} (hm : o.minimal = true) (hf : o.fmt ≠ some .round) (algos : ℕ)
    (files : List (CliFile × List ((String × String) × RunOut))) (h : ∀ t ∈ tasks files, TaskOk o t) :
    ∃ F, ∀ fuel, F ≤ fuel → ∃ s, cliMain fuel o algos files = .ok (some (s, [])) ∧
      List.Forall₂ (Reported o) (upTo (stops o) (tasks files)) s.reports := by
  obtain ⟨F, hF⟩ := flat_min hm (tasks files) h
  refine ⟨F, fun fuel hfu => ?_⟩
  obtain ⟨rs, qs, h1, h2, h3⟩ := hF fuel hfu
  refine ⟨⟨rs, setResults qs [], []⟩, ?_, h1⟩
  rw [cliMain, files_flat hf, h3]
  simp [hm]

theorem mapM_ok {α β : Type} {f : α → Py β} {g : α → β} : ∀ {l : List α}, (∀ x ∈ l, f x = .ok (g x)) → l.mapM f = .ok (l.map g)
  | [], _ => rfl
  | x :: l, h => by
    rw [List.mapM_cons, h x (by simp)]
    have := mapM_ok (l := l) (f := f) (g := g) fun y hy => h y (by simp [hy])
    simp only [bind, Except.bind, this, pure, Except.pure, List.map_cons]

theorem resulted_keys {o : CliOpts} {ts : List Task} {qs : List ((String × String) × Option ℚ)} (h : List.Forall₂ (Resulted o) ts qs) :
    qs.map (·.1) = ts.map fun t => (t.1.bn, t.2.1.2) := by
  induction h with
  | nil => rfl
  | cons h _ ih => simp [h.1, ih]

theorem upTo_sublist {α : Type} (stop : α → Bool) : ∀ l : List α, (upTo stop l).Sublist l
  | [] => .refl _
  | x :: l => by
    unfold upTo
    split_ifs
    · exact (List.nil_sublist _).cons_cons x
    · exact (upTo_sublist stop l).cons_cons x

/-- C60. With the long output the statistics of each solution are those of the solution, in the order of the
tasks; if the names of the instances and the algorithms are distinct the results hold the quality for each
task. Missing: here the capacity is in use and each solution has a customer (see `C60_capacity_raises`). -/
theorem C60_full_partial {o : CliOpts} (hm : o.minimal = false) (hf : o.fmt ≠ some .round)
    (files : List (CliFile × List ((String × String) × RunOut))) (h : ∀ t ∈ tasks files, TaskOk o t)
    (hC : ∀ t ∈ tasks files, ∀ s, found o t = some s → InUse t.1.C ∧ customers s ≠ [])
    (hn : ((tasks files).map fun t => (t.1.bn, t.2.1.2)).Nodup) :
    ∃ F, ∀ fuel, F ≤ fuel → ∃ s, cliFiles fuel o files ⟨[], [], []⟩ = .ok (some s) ∧
      List.Forall₂ (ReportedFull o) ((upTo (stops o) (tasks files)).filter fun t => (found o t).isSome) s.reports ∧
      List.Forall₂ (Resulted o) (upTo (stops o) (tasks files)) s.results ∧
      ∀ n, s.known.lookup n = (((upTo (stops o) (tasks files)).filter fun t => decide (t.1.bn = n)).filterMap fun t =>
        (found o t).map fun s => (blocks s).length).min? := by
  obtain ⟨F, hF⟩ := flat_full hm (tasks files) h (fun t ht s hs => ⟨truthy_iff.2 (hC t ht s hs).1, fun hb => (hC t ht s hs).2 (by
    rw [← blocks_flatten, hb]; rfl)⟩)
  refine ⟨F, fun fuel hfu => ?_⟩
  obtain ⟨rs, qs, ks, h1, h2, h3, h4⟩ := hF fuel hfu
  have hk : ((qs.map (·.1))).Nodup := by
    rw [resulted_keys h3]
    exact hn.sublist ((upTo_sublist _ _).map _)
  refine ⟨⟨rs, qs, ks.foldl (fun a b => noteK b a) []⟩, ?_, h1, h3, fun n => ?_⟩
  · rw [files_flat hf, h4]
    rw [setResults_new (by simpa using hk)]
    simp
  · rw [noted_least]
    simp only [List.lookup_nil, Option.toList_none, List.nil_append]
    congr 1
    clear h1 h3 h4 hk
    generalize upTo (stops o) (tasks files) = ts at h2
    induction ts generalizing ks with
    | nil => cases h2; rfl
    | cons t ts ih =>
      rcases hfo : found o t with _ | x
      · rw [List.filter_cons_of_neg (by simp [hfo])] at h2
        rw [ih ks h2]
        by_cases hb : t.1.bn = n <;> simp [hb, hfo]
      · rw [List.filter_cons_of_pos (by simp [hfo])] at h2
        cases h2 with
        | cons g1 g2 =>
          obtain ⟨b1, y, b2, b3⟩ := g1
          rw [hfo, Option.some.injEq] at b2
          subst b2
          rw [List.filter_cons, List.filter_cons, b1]
          by_cases hb : t.1.bn = n
          · simp only [hb, decide_true, if_true, List.map_cons, List.filterMap_cons, hfo, Option.map_some, b3]
            rw [ih _ g2]
          · simp only [hb, decide_false, Bool.false_eq_true, if_false]
            exact ih _ g2

/-- The right row of the table at the end for the tasks that have been reached: the name of an instance, the least number of routes of the
solutions of that instance, and the results of its algorithms in the order of the tasks. -/
def Spec.RightRow (o : CliOpts) (reached : List Task) (row : CliRow) : Prop :=
  (∃ t ∈ reached, t.1.bn = row.bn ∧ ∃ s, found o t = some s ∧ (blocks s).length = row.K) ∧
  (∀ t ∈ reached, t.1.bn = row.bn → ∀ s, found o t = some s → row.K ≤ (blocks s).length) ∧
  List.Forall₂ (fun t c => Resulted o t ((row.bn, c.1), c.2)) (reached.filter fun t => decide (t.1.bn = row.bn)) row.cells

/-- C60. The table at the end, with several instances or algorithms, has exactly one row for each instance that has been reached, and
the rows are right. Missing: it is asked that each instance reached has a solution (see `C60_table_false` and
`C60_interrupt_false`), that the names are distinct (see `C60_names_false`) and that the capacity is in use. -/
theorem C60_table_partial {o : CliOpts} (hm : o.minimal = false) (hf : o.fmt ≠ some .round) (algos : ℕ)
    (files : List (CliFile × List ((String × String) × RunOut))) (h : ∀ t ∈ tasks files, TaskOk o t)
    (hC : ∀ t ∈ tasks files, ∀ s, found o t = some s → InUse t.1.C ∧ customers s ≠ [])
    (hn : ((tasks files).map fun t => (t.1.bn, t.2.1.2)).Nodup)
    (hs : ∀ t ∈ upTo (stops o) (tasks files), ∃ t' ∈ upTo (stops o) (tasks files), t'.1.bn = t.1.bn ∧ ∃ s, found o t' = some s)
    (ha : 1 < algos ∨ ∃ t ∈ upTo (stops o) (tasks files), ∃ t' ∈ upTo (stops o) (tasks files), t.1.bn ≠ t'.1.bn) :
    ∃ F, ∀ fuel, F ≤ fuel → ∃ s table, cliMain fuel o algos files = .ok (some (s, table)) ∧
      (table.map (·.bn)).Nodup ∧ (∀ n, n ∈ table.map (·.bn) ↔ ∃ t ∈ upTo (stops o) (tasks files), t.1.bn = n) ∧
      ∀ row ∈ table, RightRow o (upTo (stops o) (tasks files)) row := by
  obtain ⟨F, hF⟩ := C60_full_partial hm hf files h hC hn
  refine ⟨F, fun fuel hfu => ?_⟩
  obtain ⟨s, h1, h2, h3, h4⟩ := hF fuel hfu
  have hnames : ∀ n, n ∈ (s.results.map fun r => r.1.1).dedup ↔ ∃ t ∈ upTo (stops o) (tasks files), t.1.bn = n := by
    intro n
    have := congrArg (List.map Prod.fst) (resulted_keys h3)
    simp only [List.map_map] at this
    rw [List.mem_dedup]
    change n ∈ List.map (Prod.fst ∘ fun x => x.1) s.results ↔ _
    rw [this]
    simp
  have hlook : ∀ n ∈ (s.results.map fun r => r.1.1).dedup, ∃ K, s.known.lookup n = some K := by
    intro n hn'
    obtain ⟨t, ht, rfl⟩ := (hnames n).1 hn'
    obtain ⟨t', ht', hb, x, hx⟩ := hs t ht
    rw [h4]
    cases hmin : ((((upTo (stops o) (tasks files)).filter fun t' => decide (t'.1.bn = t.1.bn)).filterMap fun t =>
        (found o t).map fun s => (blocks s).length).min?) with
    | some K => exact ⟨K, rfl⟩
    | none =>
      rw [List.min?_eq_none_iff] at hmin
      have : (blocks x).length ∈ (((upTo (stops o) (tasks files)).filter fun t' => decide (t'.1.bn = t.1.bn)).filterMap fun t =>
          (found o t).map fun s => (blocks s).length) :=
        List.mem_filterMap.2 ⟨t', List.mem_filter.2 ⟨ht', by simpa using hb⟩, by simp [hx]⟩
      rw [hmin] at this
      simp at this
  have htab : cliTable s = .ok ((s.results.map fun r => r.1.1).dedup.map fun bn => ⟨bn, (s.known.lookup bn).getD 0,
      (s.results.filter fun r => decide (r.1.1 = bn)).map fun r => (r.1.2, r.2)⟩) := by
    unfold cliTable
    refine mapM_ok fun bn hbn => ?_
    obtain ⟨K, hK⟩ := hlook bn hbn
    simp [hK]
  have hmany : (!o.minimal && (decide (1 < ((s.results.map fun r => r.1.1).dedup).length) || decide (1 < algos))) = true := by
    rw [hm]
    simp only [Bool.not_false, Bool.true_and, Bool.or_eq_true, decide_eq_true_eq]
    rcases ha with ha | ⟨t, ht, t', ht', hne⟩
    · exact .inr ha
    · left
      have m1 := (hnames t.1.bn).2 ⟨t, ht, rfl⟩
      have m2 := (hnames t'.1.bn).2 ⟨t', ht', rfl⟩
      match hl : (s.results.map fun r => r.1.1).dedup with
      | [] => rw [hl] at m1; simp at m1
      | [a] =>
        rw [hl, List.mem_singleton] at m1 m2
        exact absurd (m1.trans m2.symm) hne
      | a :: b :: l => rw [hl]; simp
  refine ⟨s, (s.results.map fun r => r.1.1).dedup.map fun bn => ⟨bn, (s.known.lookup bn).getD 0,
    (s.results.filter fun r => decide (r.1.1 = bn)).map fun r => (r.1.2, r.2)⟩, ?_, ?_, ?_, ?_⟩
  · rw [cliMain, h1]
    simp only [hmany, if_true, htab]
  · rw [List.map_map]
    simpa [Function.comp_def] using List.nodup_dedup _
  · intro n
    rw [List.map_map, ← hnames n]
    simp [Function.comp_def]
  · intro row hrow
    obtain ⟨bn, hbn, rfl⟩ := List.mem_map.1 hrow
    obtain ⟨K, hK⟩ := hlook bn hbn
    have hmin := h4 bn
    rw [hK] at hmin
    simp only [RightRow, hK, Option.getD_some]
    obtain ⟨k1, k2⟩ := List.min?_eq_some_iff.1 hmin.symm
    refine ⟨?_, ?_, ?_⟩
    · obtain ⟨t, ht, ht2⟩ := List.mem_filterMap.1 k1
      obtain ⟨ht3, ht4⟩ := List.mem_filter.1 ht
      rcases hfo : found o t with _ | x
      · rw [hfo] at ht2; cases ht2
      · rw [hfo] at ht2
        exact ⟨t, ht3, by simpa using ht4, x, hfo, by simpa using ht2⟩
    · intro t ht hb x hx
      exact k2 _ (List.mem_filterMap.2 ⟨t, List.mem_filter.2 ⟨ht, by simpa using hb⟩, by simp [hx]⟩)
    · clear hmin k1 k2 hmany htab hlook hnames hs ha h1 h2 h4
      generalize upTo (stops o) (tasks files) = ts at h3
      generalize s.results = qs at h3
      induction h3 with
      | nil => exact .nil
      | @cons t q ts qs g _ ih =>
        rw [List.filter_cons, List.filter_cons]
        have hq : q.1.1 = t.1.bn := by rw [g.1]
        by_cases hb : t.1.bn = bn
        · rw [if_pos (by simpa using hb), if_pos (by rw [hq]; simpa using hb)]
          refine .cons ?_ ih
          have : ((bn, q.1.2), q.2) = q := by rw [← hb, ← hq]
          show Resulted o t ((bn, q.1.2), q.2)
          rw [this]
          exact g
        · rw [if_neg (by simpa using hb), if_neg (by rw [hq]; simpa using hb)]
          exact ih

/-- C60. What is reported after the post-optimization is as good as the solution of the algorithm: each customer is served as before, the
limits that were kept are kept, and neither the length nor the cost is more. -/
theorem C60_post {o : CliOpts} {p : CliFile} {Dc : ℕ → ℕ → ℚ} (hDc : usedDc o p Dc) (h0 : p.D 0 0 = 0) {s m : List ℕ}
    (hn : (customers s).Nodup) (hs : DepotEnds s) (h : Polished o (usedD o p) s m) (ho : o.post ≠ []) :
    (customers m).Perm (customers s) ∧ (Feasible Dc p.d p.C p.L s → Feasible Dc p.d p.C p.L m) ∧
      quality o p Dc m ≤ quality o p Dc s := by
  obtain ⟨htour, h⟩ := h
  rw [if_neg ho] at h
  obtain ⟨cs, h1, h2⟩ := h
  have hc : (customers m).Perm (customers s) := by
    rw [← blocks_flatten, ← blocks_flatten]
    refine List.Perm.trans ?_ h1.flatten
    clear h1
    generalize blocks m = R at h2
    induction h2 with
    | nil => exact .refl _
    | cons h _ ih => exact List.Perm.append h.1 ih
  have hcs : ∀ c ∈ cs, c ≠ [] ∧ (∀ x ∈ c, x ≠ 0) ∧ c.Nodup := by
    intro c hc'
    have := h1.mem_iff.1 hc'
    have h3 := mem_blocks s c this
    rw [← blocks_flatten] at hn
    exact ⟨h3.1, h3.2, (List.nodup_flatten.1 hn).1 c this⟩
  obtain ⟨t, u, hshift⟩ := quality_shift hDc
  have key : ∀ b c : List ℕ, c ≠ [] → (∀ x ∈ c, x ≠ 0) → c.Nodup → b.Perm c →
      cost (usedD o p) (wrap b) ≤ cost (usedD o p) (wrap c) → cost Dc (wrap b) ≤ cost Dc (wrap c) := by
    intro b c c1 c2 c3 c4 c5
    have b1 : b ≠ [] := by
      rintro rfl
      exact c1 (by simpa using c4.symm)
    have hl : (b.length : ℚ) = c.length := by rw [c4.length_eq]
    rw [hshift b b1 (c4.nodup_iff.2 c3) (fun h => c2 0 (c4.mem_iff.1 h) rfl), hshift c c1 c3 (fun h => c2 0 h rfl), hl]
    linarith
  refine ⟨hc, fun hfe => ?_, ?_⟩
  · have hfe' : ∀ c ∈ cs, RouteOk Dc p.d p.C p.L c := fun c hc => hfe c (h1.mem_iff.1 hc)
    unfold Feasible
    clear hc h1 htour hfe
    generalize blocks m = R at h2
    induction h2 with
    | nil => simp
    | @cons c b cs bs g _ ih =>
      intro b' hb'
      rcases List.mem_cons.1 hb' with rfl | hb'
      · obtain ⟨q1, q2⟩ := hfe' c (by simp)
        obtain ⟨c1, c2, c3⟩ := hcs c (by simp)
        refine ⟨?_, ?_⟩
        · rw [demand_perm p.d g.1]
          exact q1
        · intro l hl hl0
          exact (key b' c c1 c2 c3 g.1 g.2).trans (q2 l hl hl0)
      · exact ih (fun c hc => hcs c (by simp [hc])) (fun c hc => hfe' c (by simp [hc])) b' hb'
  · have hsum : ∀ Q : ℕ → ℕ → ℚ, Q 0 0 = 0 → (∀ b c : List ℕ, c ≠ [] → (∀ x ∈ c, x ≠ 0) → c.Nodup → b.Perm c →
        cost (usedD o p) (wrap b) ≤ cost (usedD o p) (wrap c) → cost Q (wrap b) ≤ cost Q (wrap c)) → cost Q m ≤ cost Q s := by
      intro Q hQ hk
      have e1 : cost Q s = (cs.map fun c => cost Q (wrap c)).sum := by
        rw [(h1.map _).sum_eq]
        rcases depotEnds_cases hs with rfl | ⟨m', rfl⟩
        · rfl
        · rw [blocks_wrap]; exact cost_wrap_eq_sum hQ m'
      rw [e1, htour, cost_tour_sum]
      clear e1 hc h1 htour
      generalize blocks m = R at h2
      induction h2 with
      | nil => simp
      | @cons c b cs bs g _ ih =>
        obtain ⟨c1, c2, c3⟩ := hcs c (by simp)
        have i1 := ih fun c hc => hcs c (by simp [hc])
        have i2 := hk b c c1 c2 c3 g.1 g.2
        simp only [List.map_cons, List.sum_cons]
        linarith
    unfold quality
    split_ifs
    · exact hsum Dc (usedDc_home hDc h0) key
    · exact hsum (usedD o p) (usedD_home h0) fun _ _ _ _ _ _ h => h

/-! ## Where it fails -/

/-- C60. The option to round the distances never works: whatever the instances, a `TypeError`. -/
theorem C60_round_raises {o : CliOpts} (ho : o.fmt = some .round) (fuel algos : ℕ)
    (f : CliFile × List ((String × String) × RunOut)) (files : List (CliFile × List ((String × String) × RunOut))) :
    cliMain fuel o algos (f :: files) = .error .typeError := by
  obtain ⟨p, runs⟩ := f
  simp [cliMain, cliFiles, cliMatrix, ho]

/-- C60. Without a capacity the long output fails with a `TypeError` at the first solution, whatever the algorithm returns. -/
theorem C60_capacity_raises {o : CliOpts} (hm : o.minimal = false) (hf : o.fmt ≠ some .round) (algos : ℕ) {p : CliFile}
    (hC : ¬ InUse p.C) (h0 : p.D 0 0 = 0) (a : String × String) (out : RunOut) (hsim : o.simulate = false) {s : List ℕ}
    (hs : given out = some s) (hpost : o.post ≠ [] → Symm p.D ∧ (customers s).Nodup)
    (runs : List ((String × String) × RunOut)) (files : List (CliFile × List ((String × String) × RunOut))) :
    ∃ F, ∀ fuel, F ≤ fuel → cliMain fuel o algos ((p, (a, out) :: runs) :: files) = .error .typeError := by
  obtain ⟨c1, c2⟩ := call_eq o (p, a, out)
  have hfo : found o (p, a, out) = some s := by simp [found, hsim, hs]
  have hsne : s ≠ [] := by
    rintro rfl
    rcases out with (_ | _ | _) | (_ | _ | _) | _ <;> simp [given] at hs
  obtain ⟨F, hF⟩ := polish_ok (dcOf_used o p) h0 hsne hpost
  refine ⟨F, fun fuel hfu => ?_⟩
  obtain ⟨m, e1, -⟩ := hF fuel hfu
  have htr : truthy p.C = false := by
    rw [Bool.eq_false_iff]
    exact fun h => hC (truthy_iff.1 h)
  have ht : tasks ((p, (a, out) :: runs) :: files) = (p, a, out) :: ((runs.map fun r => (p, r)) ++ tasks files) := by simp [tasks]
  rw [cliMain, files_flat hf, ht, cliFlat]
  have : cliOne fuel o p (usedD o p) (dcOf o p) a out ⟨[], [], []⟩ = .error .typeError := by
    obtain ⟨x, xs, rfl⟩ := List.exists_cons_of_ne_nil hsne
    have hcall : (cliCall o out).1 = some (x :: xs) := by
      rcases hc : (cliCall o out).1 with _ | _ | ⟨y, ys⟩
      · rw [hc] at c2; simp only at c2; rw [hfo] at c2; cases c2
      · rw [hc] at c2; simp only at c2; rw [hfo] at c2; cases c2
      · rw [hc] at c2; simp only at c2; rw [hfo] at c2; rw [Option.some.inj c2]
    simp only [cliOne, hcall, e1, hm, Bool.false_eq_true, if_false, cliFull, cliFresh, List.lookup_nil, htr, Bool.false_and,
      Bool.not_false, Bool.and_self, if_true]
  simp only [this]

/-- Four customers at corners, two vehicles with two customers each. -/
def cliSquare (bn : String) : CliFile where
  bn := bn
  N := 5
  ty := .int
  D := fun a b => |(a : ℚ) - b|
  d := fun a => if a = 0 then 0 else 1
  C := some 2
  L := none
  st := none

/-- Two algorithms. -/
def cliGood : (String × String) × RunOut := (("cw", "savings"), .ret (some [0, 4, 3, 0, 0, 2, 1, 0]))
def cliBad : (String × String) × RunOut := (("nn", "neighbor"), .failed .indexError)
def cliStopped : (String × String) × RunOut := (("nn", "neighbor"), .interrupted none)

example : cliMain 100 { minimal := true } 2 [(cliSquare "A", [cliBad, cliGood]), (cliSquare "B", [cliGood, cliStopped, cliGood])] =
    .ok (some (⟨[.noLine "nn" "A" false, .line "cw" "A" true 12 2 false, .line "cw" "B" true 12 2 false, .noLine "nn" "B" true],
      [(("A", "neighbor"), none), (("A", "savings"), some 12), (("B", "savings"), some 12), (("B", "neighbor"), none)], []⟩, [])) := by
  decide +kernel

example : cliMain 100 {} 2 [(cliSquare "A", [cliBad, cliGood])] = .ok (some (⟨[.full "cw" "A" ⟨[0, 1, 2, 0, 3, 4, 0], true, true, true, 2,
      none, some 12⟩], [(("A", "neighbor"), none), (("A", "savings"), some 12)], [("A", 2)]⟩,
      [⟨"A", 2, [("neighbor", none), ("savings", some 12)]⟩])) := by
  decide +kernel

example : cliMain 100 { minimal := true, show_cost := true, post := [.twoOpt, .threeOpt] } 1
    [({ cliSquare "A" with C := none, st := some 2 }, [(("x", "X"), .ret (some [0, 2, 1, 4, 3, 0]))])] =
    .ok (some (⟨[.line "x" "A" true 16 1 false], [(("A", "X"), some 16)], []⟩, [])) := by
  decide +kernel

/-- The square meets what is asked of a task, with and without post-optimization. -/
theorem cliSquare_ok (o : CliOpts) (bn : String) (r : (String × String) × RunOut) (hr : r = cliGood ∨ r = cliBad ∨ r = cliStopped) :
    TaskOk o (cliSquare bn, r) where
  home := by simp [cliSquare]
  depot := rfl
  capacity := by rintro c ⟨⟩; norm_num
  length := by rintro l ⟨⟩
  nodes := by
    intro s hs
    unfold found at hs
    rcases hr with rfl | rfl | rfl <;> simp [cliGood, cliBad, cliStopped, given] at hs
    obtain ⟨-, rfl⟩ := hs
    exact ⟨by simp [cliSquare], by simp [cliSquare]⟩
  post := by
    refine fun _ => ⟨fun a b => abs_sub_comm _ _, fun s hs => ?_⟩
    unfold found at hs
    rcases hr with rfl | rfl | rfl <;> simp [cliGood, cliBad, cliStopped, given] at hs
    obtain ⟨-, rfl⟩ := hs
    decide

/-- C60 fails: if no algorithm solves an instance the table of all results is lost, a `KeyError`. -/
theorem C60_table_false : ∃ files : List (CliFile × List ((String × String) × RunOut)),
    (∀ t ∈ tasks files, TaskOk {} t ∧ InUse t.1.C) ∧ ((tasks files).map fun t => (t.1.bn, t.2.1.2)).Nodup ∧
    (found {} (cliSquare "A", cliGood)).isSome ∧ (cliSquare "A", cliGood) ∈ tasks files ∧
    cliMain 100 {} 1 files = .error .keyError := by
  refine ⟨[(cliSquare "A", [cliGood]), (cliSquare "B", [cliBad])], ?_, by decide, rfl, by simp [tasks], by decide +kernel⟩
  intro t ht
  simp only [tasks, List.flatMap_cons, List.flatMap_nil, List.map_cons, List.map_nil, List.append_nil, List.cons_append,
    List.nil_append, List.mem_cons, List.not_mem_nil, or_false] at ht
  rcases ht with rfl | rfl
  · exact ⟨cliSquare_ok _ _ _ (.inl rfl), 2, rfl, by norm_num⟩
  · exact ⟨cliSquare_ok _ _ _ (.inr (.inl rfl)), 2, rfl, by norm_num⟩

/-- C60 fails: an interrupt before the first solution of an instance loses the table for all the instances before, a `KeyError`. -/
theorem C60_interrupt_false : ∃ files : List (CliFile × List ((String × String) × RunOut)),
    (∀ t ∈ tasks files, TaskOk {} t ∧ InUse t.1.C) ∧ ((tasks files).map fun t => (t.1.bn, t.2.1.2)).Nodup ∧
    (cliSquare "A", cliGood) ∈ tasks files ∧ cliMain 100 {} 2 files = .error .keyError := by
  refine ⟨[(cliSquare "A", [cliGood]), (cliSquare "B", [cliStopped, cliGood])], ?_, by decide, by simp [tasks], by decide +kernel⟩
  intro t ht
  simp only [tasks, List.flatMap_cons, List.flatMap_nil, List.map_cons, List.map_nil, List.append_nil, List.cons_append,
    List.nil_append, List.mem_cons, List.not_mem_nil, or_false] at ht
  rcases ht with rfl | rfl | rfl
  · exact ⟨cliSquare_ok _ _ _ (.inl rfl), 2, rfl, by norm_num⟩
  · exact ⟨cliSquare_ok _ _ _ (.inr (.inr rfl)), 2, rfl, by norm_num⟩
  · exact ⟨cliSquare_ok _ _ _ (.inl rfl), 2, rfl, by norm_num⟩

/-- C60 fails: of two files with the same name in different directories only the last is in the results. -/
theorem C60_names_false : ∃ p q : CliFile, p.D 0 1 ≠ q.D 0 1 ∧ TaskOk {} (p, cliGood) ∧ TaskOk {} (q, cliGood) ∧
    ∃ s, cliMain 100 {} 1 [(p, [cliGood]), (q, [cliGood])] = .ok (some s) ∧ s.1.results = [(("A", "savings"), some 24)] ∧
      s.1.reports.length = 2 := by
  refine ⟨cliSquare "A", { cliSquare "A" with D := fun a b => 2 * |(a : ℚ) - b| }, by simp [cliSquare], cliSquare_ok _ _ _ (.inl rfl),
    { cliSquare_ok {} "A" cliGood (.inl rfl) with
      home := by simp
      post := fun h => absurd rfl h }, ?_⟩
  exact ⟨(⟨[.full "cw" "A" ⟨[0, 1, 2, 0, 3, 4, 0], true, true, true, 2, none, some 12⟩,
    .full "cw" "A" ⟨[0, 1, 2, 0, 3, 4, 0], true, true, true, 2, none, some 24⟩], [(("A", "savings"), some 24)], [("A", 2)]⟩, []),
    by decide +kernel, rfl, rfl⟩

end Verif
