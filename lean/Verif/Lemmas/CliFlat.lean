import Verif.Lemmas.CliBatch

/-! # The batch as one loop over the tasks -/

namespace Verif
open Spec

/-- The distances with the service time. -/
noncomputable def dcOf (o : CliOpts) (p : CliFile) : ℕ → ℕ → ℚ := Classical.choose (costs_ok (o := o) (p := p))

theorem dcOf_eq (o : CliOpts) (p : CliFile) : cliCosts o p (usedD o p) = .ok (dcOf o p) :=
  (Classical.choose_spec (costs_ok (o := o) (p := p))).1

theorem dcOf_used (o : CliOpts) (p : CliFile) : usedDc o p (dcOf o p) :=
  (Classical.choose_spec (costs_ok (o := o) (p := p))).2

/-- The loops over the files and the algorithms in one. -/
noncomputable def cliFlat (fuel : ℕ) (o : CliOpts) : List Task → CliSt → Py (Option CliSt)
  | [], s => .ok (some s)
  | t :: ts, s =>
    match cliOne fuel o t.1 (usedD o t.1) (dcOf o t.1) t.2.1 t.2.2 s with
    | .error e => .error e
    | .ok none => .ok none
    | .ok (some (s, true)) => .ok (some s)
    | .ok (some (s, false)) => cliFlat fuel o ts s

theorem algos_flat {fuel : ℕ} {o : CliOpts} {p : CliFile} (rest : List Task) :
    ∀ (runs : List ((String × String) × RunOut)) (s : CliSt),
    cliFlat fuel o ((runs.map fun r => (p, r)) ++ rest) s =
      match cliAlgos fuel o p (usedD o p) (dcOf o p) runs s with
      | .error e => .error e
      | .ok none => .ok none
      | .ok (some (s, true)) => .ok (some s)
      | .ok (some (s, false)) => cliFlat fuel o rest s
  | [], s => rfl
  | r :: runs, s => by
    rw [List.map_cons, List.cons_append, cliFlat, cliAlgos]
    rcases cliOne fuel o p (usedD o p) (dcOf o p) r.1 r.2 s with e | _ | ⟨s', _ | _⟩
    · rfl
    · rfl
    · exact algos_flat rest runs s'
    · rfl

theorem files_flat {fuel : ℕ} {o : CliOpts} (ho : o.fmt ≠ some .round) :
    ∀ (files : List (CliFile × List ((String × String) × RunOut))) (s : CliSt),
    cliFiles fuel o files s = cliFlat fuel o (tasks files) s
  | [], s => rfl
  | (p, runs) :: t, s => by
    have : tasks ((p, runs) :: t) = (runs.map fun r => (p, r)) ++ tasks t := by simp [tasks]
    rw [this, algos_flat, cliFiles, matrix_ok ho]
    simp only [dcOf_eq]
    rcases cliAlgos fuel o p (usedD o p) (dcOf o p) runs s with e | _ | ⟨s', _ | _⟩
    · rfl
    · rfl
    · exact files_flat ho t s'
    · rfl

theorem call_eq (o : CliOpts) (t : Task) :
    (cliCall o t.2.2).2 = stops o t ∧ (match (cliCall o t.2.2).1 with
      | none => found o t = none
      | some [] => found o t = none
      | some (x :: xs) => found o t = some (x :: xs)) := by
  obtain ⟨p, a, out⟩ := t
  unfold cliCall stops found
  cases hs : o.simulate
  · rcases out with (_ | _ | _) | (_ | _ | _) | e <;> simp [given]
  · simp

/-- The results after a task. -/
def setResult (q : (String × String) × Option ℚ) (s : CliSt) : CliSt := { s with results := dictSet q.1 q.2 s.results }

theorem plain_of {o : CliOpts} {t : Task} (h : TaskOk o t) : PlainData (dcOf o t.1) t.1.d t.1.C t.1.L :=
  ⟨usedDc_home (dcOf_used o t.1) h.home, h.depot, h.capacity, h.length⟩

/-- One task with the short output. -/
theorem one_min {o : CliOpts} (hm : o.minimal = true) {t : Task} (h : TaskOk o t) :
    ∃ F, ∀ fuel, F ≤ fuel → ∃ r q, Reported o t r ∧ Resulted o t q ∧ ∀ s,
      cliOne fuel o t.1 (usedD o t.1) (dcOf o t.1) t.2.1 t.2.2 s =
        .ok (some (setResult q { s with reports := s.reports ++ [r] }, stops o t)) := by
  obtain ⟨c1, c2⟩ := call_eq o t
  rcases hc : (cliCall o t.2.2).1 with _ | _ | ⟨x, xs⟩
  · rw [hc] at c2
    refine ⟨0, fun fuel _ => ⟨.noLine t.2.1.1 t.1.bn (stops o t), ((t.1.bn, t.2.1.2), none), by simp only [Reported, c2],
      by simp only [Resulted, c2, and_self], fun s => ?_⟩⟩
    simp only [cliOne, hc, c1, hm, if_true, setResult]
  · rw [hc] at c2
    refine ⟨0, fun fuel _ => ⟨.noLine t.2.1.1 t.1.bn (stops o t), ((t.1.bn, t.2.1.2), none), by simp only [Reported, c2],
      by simp only [Resulted, c2, and_self], fun s => ?_⟩⟩
    simp only [cliOne, hc, c1, hm, if_true, setResult]
  · rw [hc] at c2
    simp only at c2
    obtain ⟨F, hF⟩ := polish_ok (dcOf_used o t.1) h.home (s := x :: xs) (by simp) (fun hp => ⟨(h.post hp).1, (h.post hp).2 _ c2⟩)
    refine ⟨F, fun fuel hf => ?_⟩
    obtain ⟨m, e1, e2, e3, e4, e5, e6⟩ := hF fuel hf
    have hn := h.nodes _ c2
    obtain ⟨cov, cap, len, v1, -, -, -, v2⟩ := C09_exact_tour t.1.N (dcOf o t.1) (plain_of h).home t.1.d h.depot t.1.C t.1.L
      h.capacity h.length m e3.1 (fun y hy => by
        rcases e4 y hy with rfl | h'
        · exact hn.1
        · exact hn.2 y h')
    refine ⟨.line t.2.1.1 t.1.bn (cov && cap && len) (quality o t.1 (dcOf o t.1) m) (blocks m).length (stops o t),
      ((t.1.bn, t.2.1.2), some (quality o t.1 (dcOf o t.1) m)), ?_, ?_, fun s => ?_⟩
    · simp only [Reported, c2]
      exact ⟨m, _, _, dcOf_used o t.1, e2, rfl, v2⟩
    · simp only [Resulted, c2]
      exact ⟨trivial, m, _, dcOf_used o t.1, e2, rfl⟩
    · simp only [cliOne, hc, c1, e1, v1, hm, if_true, setResult]

/-- The results of several tasks. -/
def setResults (qs : List ((String × String) × Option ℚ)) (r : List ((String × String) × Option ℚ)) :
    List ((String × String) × Option ℚ) := qs.foldl (fun r q => dictSet q.1 q.2 r) r

theorem flat_min {o : CliOpts} (hm : o.minimal = true) : ∀ (ts : List Task), (∀ t ∈ ts, TaskOk o t) →
    ∃ F, ∀ fuel, F ≤ fuel → ∃ rs qs, List.Forall₂ (Reported o) (upTo (stops o) ts) rs ∧
      List.Forall₂ (Resulted o) (upTo (stops o) ts) qs ∧ ∀ s, cliFlat fuel o ts s =
        .ok (some { s with reports := s.reports ++ rs, results := setResults qs s.results })
  | [], _ => ⟨0, fun _ _ => ⟨[], [], .nil, .nil, fun s => by simp [cliFlat, setResults]⟩⟩
  | t :: ts, h => by
    obtain ⟨F1, h1⟩ := one_min hm (h t (by simp))
    obtain ⟨F2, h2⟩ := flat_min hm ts fun t' ht' => h t' (by simp [ht'])
    refine ⟨max F1 F2, fun fuel hf => ?_⟩
    obtain ⟨r, q, r1, q1, e1⟩ := h1 fuel (by omega)
    cases hs : stops o t with
    | true =>
      refine ⟨[r], [q], by simp only [upTo, hs, if_true]; exact .cons r1 .nil, by simp only [upTo, hs, if_true]; exact .cons q1 .nil,
        fun s => ?_⟩
      rw [cliFlat, e1, hs]
      simp [setResult, setResults]
    | false =>
      obtain ⟨rs, qs, r2, q2, e2⟩ := h2 fuel (by omega)
      refine ⟨r :: rs, q :: qs, by simp only [upTo, hs, Bool.false_eq_true, if_false]; exact .cons r1 r2,
        by simp only [upTo, hs, Bool.false_eq_true, if_false]; exact .cons q1 q2, fun s => ?_⟩
      rw [cliFlat, e1, hs]
      simp only [e2]
      simp [setResult, setResults]

/-- One more instance with data. -/
def noteK (b : String × ℕ) (known : List (String × ℕ)) : List (String × ℕ) :=
  if cliFresh known b.1 b.2 then dictSet b.1 b.2 known else known

/-- The name and the number of routes of a task that is solved. -/
def NotedK (o : CliOpts) (t : Task) (b : String × ℕ) : Prop :=
  b.1 = t.1.bn ∧ ∃ s, found o t = some s ∧ b.2 = (blocks s).length

/-- One task with the long output. -/
theorem one_full {o : CliOpts} (hm : o.minimal = false) {t : Task} (h : TaskOk o t)
    (hC : ∀ s, found o t = some s → truthy t.1.C = true ∧ blocks s ≠ []) :
    ∃ F, ∀ fuel, F ≤ fuel → ∃ q rs ks, Resulted o t q ∧ (found o t = none ∧ rs = [] ∧ ks = [] ∨
        (found o t).isSome ∧ ∃ r k, rs = [r] ∧ ks = [k] ∧ ReportedFull o t r ∧ NotedK o t k) ∧ ∀ s,
      cliOne fuel o t.1 (usedD o t.1) (dcOf o t.1) t.2.1 t.2.2 s =
        .ok (some (setResult q { s with reports := s.reports ++ rs, known := ks.foldl (fun a b => noteK b a) s.known }, stops o t)) := by
  obtain ⟨c1, c2⟩ := call_eq o t
  rcases hc : (cliCall o t.2.2).1 with _ | _ | ⟨x, xs⟩
  · rw [hc] at c2
    refine ⟨0, fun fuel _ => ⟨((t.1.bn, t.2.1.2), none), [], [], by simp only [Resulted, c2, and_self], .inl ⟨c2, rfl, rfl⟩, fun s => ?_⟩⟩
    simp [cliOne, hc, c1, hm, setResult]
  · rw [hc] at c2
    refine ⟨0, fun fuel _ => ⟨((t.1.bn, t.2.1.2), none), [], [], by simp only [Resulted, c2, and_self], .inl ⟨c2, rfl, rfl⟩, fun s => ?_⟩⟩
    simp [cliOne, hc, c1, hm, setResult]
  · rw [hc] at c2
    simp only at c2
    obtain ⟨F, hF⟩ := polish_ok (dcOf_used o t.1) h.home (s := x :: xs) (by simp) (fun hp => ⟨(h.post hp).1, (h.post hp).2 _ c2⟩)
    refine ⟨F, fun fuel hf => ?_⟩
    obtain ⟨m, e1, e2, e3, e4, e5, e6⟩ := hF fuel hf
    have hn := h.nodes _ c2
    obtain ⟨st, v1, v2⟩ := statistics_ok (N := t.1.N) (D := usedD o t.1) (plain_of h) e3 e5 (fun y hy => by
        rcases e4 y hy with rfl | h'
        · exact hn.1
        · exact hn.2 y h') true
    obtain ⟨hC1, hC2⟩ := hC _ c2
    have hK : (blocks m).length ≠ 0 := by
      rw [e6]
      simpa using hC2
    refine ⟨((t.1.bn, t.2.1.2), some (quality o t.1 (dcOf o t.1) m)), [.full t.2.1.1 t.1.bn st], [(t.1.bn, (blocks m).length)], ?_,
      .inr ⟨by simp [c2], _, _, rfl, rfl, ⟨_, m, st, _, c2, dcOf_used o t.1, e2, rfl, by simpa using v2⟩, rfl, _, c2, e6⟩, fun s => ?_⟩
    · simp only [Resulted, c2]
      exact ⟨trivial, m, _, dcOf_used o t.1, e2, rfl⟩
    · simp only [cliOne, hc, c1, e1, hm, Bool.false_eq_true, if_false, cliFull, hC1, hK, ne_eq, not_false_eq_true, decide_true,
        Bool.and_self, Bool.not_true, Bool.and_false, v1, setResult, List.foldl_cons, List.foldl_nil, noteK]

theorem flat_full {o : CliOpts} (hm : o.minimal = false) : ∀ (ts : List Task), (∀ t ∈ ts, TaskOk o t) →
    (∀ t ∈ ts, ∀ s, found o t = some s → truthy t.1.C = true ∧ blocks s ≠ []) →
    ∃ F, ∀ fuel, F ≤ fuel → ∃ rs qs ks, List.Forall₂ (ReportedFull o) ((upTo (stops o) ts).filter fun t => (found o t).isSome) rs ∧
      List.Forall₂ (NotedK o) ((upTo (stops o) ts).filter fun t => (found o t).isSome) ks ∧
      List.Forall₂ (Resulted o) (upTo (stops o) ts) qs ∧ ∀ s, cliFlat fuel o ts s =
        .ok (some ⟨s.reports ++ rs, setResults qs s.results, ks.foldl (fun a b => noteK b a) s.known⟩)
  | [], _, _ => ⟨0, fun _ _ => ⟨[], [], [], .nil, .nil, .nil, fun s => by simp [cliFlat, setResults]⟩⟩
  | t :: ts, h, hC => by
    obtain ⟨F1, h1⟩ := one_full hm (h t (by simp)) (hC t (by simp))
    obtain ⟨F2, h2⟩ := flat_full hm ts (fun t' ht' => h t' (by simp [ht'])) (fun t' ht' => hC t' (by simp [ht']))
    refine ⟨max F1 F2, fun fuel hf => ?_⟩
    obtain ⟨q, rs1, ks1, q1, hcase, e1⟩ := h1 fuel (by omega)
    have hone : List.Forall₂ (ReportedFull o) ([t].filter fun t => (found o t).isSome) rs1 ∧
        List.Forall₂ (NotedK o) ([t].filter fun t => (found o t).isSome) ks1 := by
      rcases hcase with ⟨hn, rfl, rfl⟩ | ⟨hsm, r, k, rfl, rfl, hr, hk⟩
      · simp [hn]
      · simp [hsm, hr, hk]
    cases hs : stops o t with
    | true =>
      refine ⟨rs1, [q], ks1, by simp only [upTo, hs, if_true]; exact hone.1, by simp only [upTo, hs, if_true]; exact hone.2,
        by simp only [upTo, hs, if_true]; exact .cons q1 .nil, fun s => ?_⟩
      rw [cliFlat, e1, hs]
      simp [setResult, setResults]
    | false =>
      obtain ⟨rs, qs, ks, r2, k2, q2, e2⟩ := h2 fuel (by omega)
      refine ⟨rs1 ++ rs, q :: qs, ks1 ++ ks, ?_, ?_, by simp only [upTo, hs, Bool.false_eq_true, if_false]; exact .cons q1 q2, fun s => ?_⟩
      · simp only [upTo, hs, Bool.false_eq_true, if_false]
        have : List.Forall₂ _ (_ ++ _) (_ ++ _) := List.rel_append hone.1 r2
        rwa [← List.filter_append] at this
      · simp only [upTo, hs, Bool.false_eq_true, if_false]
        have : List.Forall₂ _ (_ ++ _) (_ ++ _) := List.rel_append hone.2 k2
        rwa [← List.filter_append] at this
      · rw [cliFlat, e1, hs]
        simp only [e2]
        simp [setResult, setResults]

/-! ## The dictionaries -/

theorem dictSet_fresh {κ α : Type} [DecidableEq κ] {k : κ} {v : α} : ∀ {r : List (κ × α)}, k ∉ r.map (·.1) →
    dictSet k v r = r ++ [(k, v)]
  | [], _ => rfl
  | (k', v') :: t, h => by
    simp only [List.map_cons, List.mem_cons, not_or] at h
    simp only [dictSet]
    rw [if_neg (Ne.symm h.1), dictSet_fresh h.2]
    rfl

theorem setResults_new : ∀ {qs r : List ((String × String) × Option ℚ)}, ((r ++ qs).map (·.1)).Nodup → setResults qs r = r ++ qs
  | [], r, _ => by simp [setResults]
  | q :: qs, r, h => by
    have hq : q.1 ∉ r.map (·.1) := by
      intro hm
      simp only [List.map_append, List.map_cons] at h
      exact (List.nodup_append.1 h).2.2 _ hm _ (by simp) rfl
    have h2 : setResults (q :: qs) r = setResults qs (dictSet q.1 q.2 r) := rfl
    rw [h2, dictSet_fresh hq, setResults_new (by simpa using h)]
    simp

theorem lookup_dictSet {α : Type} {k k' : String} {v : α} : ∀ {r : List (String × α)},
    (dictSet k v r).lookup k' = if k' = k then some v else r.lookup k'
  | [] => by
    simp only [dictSet, List.lookup]
    by_cases h : k' = k
    · simp [h]
    · have : (k' == k) = false := by simpa using h
      simp [h, this]
  | (k1, v1) :: t => by
    simp only [dictSet]
    by_cases h1 : k1 = k
    · rw [if_pos h1]
      subst h1
      by_cases h : k' = k1
      · simp [List.lookup, h]
      · have : (k' == k1) = false := by simpa using h
        simp [List.lookup, this, h]
    · rw [if_neg h1]
      by_cases h : k' = k1
      · have : ¬ k' = k := by rw [h]; exact h1
        rw [if_neg this]
        simp [List.lookup, h]
      · have hb : (k' == k1) = false := by simpa using h
        simp only [List.lookup, hb]
        exact lookup_dictSet

/-- The data of an instance: the least number of routes so far. -/
theorem noted_least (n : String) : ∀ (ks known : List (String × ℕ)),
    (ks.foldl (fun a b => noteK b a) known).lookup n =
      ((known.lookup n).toList ++ (ks.filter fun k => decide (k.1 = n)).map (·.2)).min?
  | [], known => by
    cases h : known.lookup n <;> simp [h]
  | k :: ks, known => by
    rw [List.foldl_cons, noted_least n ks]
    by_cases hk : k.1 = n
    · subst hk
      have e1 : (noteK k known).lookup k.1 = some (match known.lookup k.1 with
          | none => k.2
          | some K' => min K' k.2) := by
        unfold noteK cliFresh
        rcases hl : known.lookup k.1 with _ | K'
        · simp only [if_true, lookup_dictSet]
        · by_cases hlt : k.2 < K'
          · simp only [hlt, decide_true, if_true, lookup_dictSet]
            rw [min_eq_right (le_of_lt hlt)]
          · simp only [hlt, decide_false, Bool.false_eq_true, if_false, hl]
            rw [min_eq_left (not_lt.1 hlt)]
      rw [e1]
      rcases hl : known.lookup k.1 with _ | K'
      · simp
      · simp only [Option.toList_some, List.filter_cons, decide_true, if_true, List.map_cons, List.cons_append, List.nil_append]
        generalize (ks.filter fun k1 => decide (k1.1 = k.1)).map (·.2) = l
        simp only [List.min?_cons]
        rcases l.min? with _ | y <;> simp [min_assoc]
    · have e1 : (noteK k known).lookup n = known.lookup n := by
        unfold noteK
        split_ifs
        · rw [lookup_dictSet, if_neg (Ne.symm hk)]
        · rfl
      rw [e1]
      simp [hk]

end Verif
