import Verif.Model.SavingsVariants
import Verif.Props.ParallelSavings
import Verif.Props.LocalSearchInner
import Verif.Props.Sweep
import Verif.Spec.Savings
import Verif.Lemmas.StarLoop

/-! # Lemmas about the variants of the parallel savings algorithm -/

namespace Verif

open Spec

/-! ## More fuel does not change the result of the local search -/

theorem opsLoop_more (ops : List LsOp) (st : LSOPT) (iter : ITEROPT) : ∀ (f f' : ℕ) (s : LsState) (i : ℕ)
    (bi : Option (Changes × ℚ)) (imp : Bool) (r : LsState × Option (Changes × ℚ) × Bool), f ≤ f' →
    opsLoop ops st iter f s i bi imp = .ok (some r) → opsLoop ops st iter f' s i bi imp = .ok (some r) := by
  intro f
  induction f with
  | zero => intro f' s i bi imp r _ h; simp [opsLoop] at h
  | succ f ih =>
    intro f' s i bi imp r hf h
    obtain ⟨f', rfl⟩ : ∃ g, f' = g + 1 := ⟨f' - 1, by omega⟩
    have ih := fun s i bi imp => ih f' s i bi imp r (by omega)
    rw [opsLoop] at h ⊢
    cases ho : ops[i]? with
    | none => rw [ho] at h; exact h
    | some op =>
      rw [ho] at h
      simp only at h ⊢
      cases hc : combLoop op st iter s with
      | error e => rw [hc] at h; simp at h
      | ok x =>
        obtain ⟨⟨best, found⟩, b⟩ := x
        rw [hc] at h
        simp only at h ⊢
        cases best with
        | none => exact ih _ _ _ _ h
        | some x =>
          obtain ⟨res, delta⟩ := x
          simp only at h ⊢
          by_cases h1 : iter = .BEST_ACCEPT
          · rw [if_pos h1] at h ⊢
            exact ih _ _ _ _ h
          · rw [if_neg h1] at h ⊢
            cases ha : applyResult res (markOptimal op found s) with
            | error e => rw [ha] at h; simp at h
            | ok s' =>
              rw [ha] at h
              simp only at h ⊢
              by_cases h2 : iter = .FIRST_ACCEPT
              · rw [if_pos h2] at h ⊢; exact h
              · rw [if_neg h2] at h ⊢
                by_cases h3 : iter = .REPEATED_ACCEPT
                · rw [if_pos h3] at h ⊢; exact ih _ _ _ _ h
                · rw [if_neg h3] at h ⊢; exact ih _ _ _ _ h

theorem lsLoop_more (ops : List LsOp) (st : LSOPT) (iter : ITEROPT) (o o' : ℕ) (ho : o ≤ o') :
    ∀ (f f' : ℕ) (s : LsState) (k : ℕ) (r : LsState), f ≤ f' →
    lsLoop ops st iter none o f s k = .ok (some r) → lsLoop ops st iter none o' f' s k = .ok (some r) := by
  intro f
  induction f with
  | zero => intro f' s k r _ h; simp [lsLoop] at h
  | succ f ih =>
    intro f' s k r hf h
    obtain ⟨f', rfl⟩ : ∃ g, f' = g + 1 := ⟨f' - 1, by omega⟩
    rw [lsLoop] at h ⊢
    cases hc : opsLoop ops st iter o s 0 none false with
    | error e => rw [hc] at h; simp at h
    | ok x =>
      cases x with
      | none => rw [hc] at h; simp at h
      | some x =>
        rw [opsLoop_more ops st iter o o' s 0 none false x ho hc]
        rw [hc] at h
        obtain ⟨s1, bi, imp⟩ := x
        simp only at h ⊢
        cases he : endIteration iter s1 bi imp with
        | error e => rw [he] at h; simp at h
        | ok y =>
          obtain ⟨s2, imp2⟩ := y
          rw [he] at h
          simp only at h ⊢
          cases imp2 with
          | true => simp only [if_true] at h ⊢; exact ih f' s2 (k + 1) r (by omega) h
          | false => simpa using h

/-- If the search ends with some fuel, it ends so with more. -/
theorem local_search_more {f f' : ℕ} (hf : f ≤ f') {ops : List LsOp} {sol : List ℕ} {D : ℕ → ℕ → ℚ}
    {d : Option (ℕ → ℚ)} {st : LSOPT} {iter : ITEROPT} {sol' : List ℕ}
    (h : do_local_search f ops sol D d st iter none = .ok (some sol')) :
    do_local_search f' ops sol D d st iter none = .ok (some sol') := by
  unfold do_local_search at h ⊢
  cases hl : lsLoop ops st iter none f f (lsInit sol D d) 0 with
  | error e => rw [hl] at h; simp at h
  | ok x =>
    cases x with
    | none => rw [hl] at h; simp at h
    | some s =>
      rw [lsLoop_more ops st iter f f' hf f f' _ 0 s hf hl]
      rw [hl] at h
      exact h

/-! ## The savings lists -/

theorem mem_savingsRecords {N : ℕ} {D crit : ℕ → ℕ → ℚ} {sv : Saving} :
    sv ∈ savingsRecords N D crit ↔ ∃ i j, 1 ≤ i ∧ i < j ∧ j < N ∧ sv = (crit i j, -D i j, i, j) := by
  unfold savingsRecords
  rw [List.mem_flatMap]
  simp only [List.mem_map, mem_pyRange]
  constructor
  · rintro ⟨i, hi, j, hj, rfl⟩
    exact ⟨i, j, hi.1, by omega, hj.2, rfl⟩
  · rintro ⟨i, j, h1, h2, h3, rfl⟩
    exact ⟨i, ⟨h1, by omega⟩, j, ⟨by omega, h3⟩, rfl⟩

theorem pyRange_nodup (a b : ℕ) : (pyRange a b).Nodup := by
  unfold pyRange
  exact List.nodup_range'

theorem savingsRecords_nodup (N : ℕ) (D crit : ℕ → ℕ → ℚ) : ((savingsRecords N D crit).map (·.2.2)).Nodup := by
  unfold savingsRecords
  rw [List.map_flatMap, List.nodup_flatMap]
  constructor
  · intro i _
    rw [List.map_map]
    exact List.Nodup.map_on (fun a _ b _ h => by simpa using h) (pyRange_nodup _ _)
  · refine List.Pairwise.imp ?_ (pyRange_nodup 1 N)
    intro a b hab x hx hy
    simp only [List.map_map, List.mem_map, Function.comp] at hx hy
    obtain ⟨u, -, rfl⟩ := hx
    obtain ⟨v, -, e⟩ := hy
    simp only [Prod.mk.injEq] at e
    exact hab e.1.symm

theorem sortSavings_perm (l : List Saving) : (sortSavings l).Perm l := pySort_perm _ l

theorem mem_sortSavings {l : List Saving} {sv : Saving} : sv ∈ sortSavings l ↔ sv ∈ l := mem_pySort _ _ _

theorem sortSavings_sorted (l : List Saving) : (sortSavings l).Pairwise (fun a b => savingLe b a = true) :=
  pySort_pairwise (fun a b c h1 h2 => savingLe_trans c b a h2 h1) (fun a b => savingLe_total b a) _

theorem savingLe_antisymm {a b : Saving} (h1 : savingLe a b = true) (h2 : savingLe b a = true) : a = b := by
  obtain ⟨a1, a2, a3, a4⟩ := a
  obtain ⟨b1, b2, b3, b4⟩ := b
  simp only [savingLe, Bool.or_eq_true, Bool.and_eq_true, decide_eq_true_eq] at h1 h2
  have e1 : a1 = b1 := by
    rcases h1 with h1 | h1
    · rcases h2 with h2 | h2
      · exact absurd (lt_trans h1 h2) (lt_irrefl _)
      · exact h2.1.symm
    · exact h1.1
  subst e1
  have h1 := (h1.resolve_left (lt_irrefl _)).2
  have h2 := (h2.resolve_left (lt_irrefl _)).2
  have e2 : a2 = b2 := by
    rcases h1 with h1 | h1
    · rcases h2 with h2 | h2
      · exact absurd (lt_trans h1 h2) (lt_irrefl _)
      · exact h2.1.symm
    · exact h1.1
  subst e2
  have h1 := (h1.resolve_left (lt_irrefl _)).2
  have h2 := (h2.resolve_left (lt_irrefl _)).2
  have e3 : a3 = b3 := by
    rcases h1 with h1 | h1
    · rcases h2 with h2 | h2
      · omega
      · exact h2.1.symm
    · exact h1.1
  subst e3
  have h1 := (h1.resolve_left (lt_irrefl _)).2
  have h2 := (h2.resolve_left (lt_irrefl _)).2
  have e4 : a4 = b4 := le_antisymm h1 h2
  rw [e4]

/-- Sorted lists with the same records are the same. -/
theorem savings_unique {l l' : List Saving} (h : l.Perm l') (h1 : l.Pairwise (fun a b => savingLe b a = true))
    (h2 : l'.Pairwise (fun a b => savingLe b a = true)) : l = l' :=
  h.eq_of_pairwise (fun _ _ _ _ g1 g2 => savingLe_antisymm g2 g1) h1 h2

theorem ranks_of_sorted {N : ℕ} {D crit : ℕ → ℕ → ℚ} {l : List Saving}
    (hp : l.Perm (savingsRecords N D crit)) (hs : l.Pairwise (fun a b => savingLe b a = true)) :
    Ranks N D crit l := by
  have hm : ∀ sv ∈ l, ∃ i j, 1 ≤ i ∧ i < j ∧ j < N ∧ sv = (crit i j, -D i j, i, j) :=
    fun sv hsv => mem_savingsRecords.1 (hp.mem_iff.1 hsv)
  have hn : (l.map (·.2.2)).Nodup := (hp.map _).nodup_iff.2 (savingsRecords_nodup N D crit)
  refine ⟨?_, hm, ?_⟩
  · intro i j h1 h2 h3
    refine List.count_eq_one_of_mem hn (List.mem_map.2 ⟨(crit i j, -D i j, i, j), ?_, rfl⟩)
    exact hp.mem_iff.2 (mem_savingsRecords.2 ⟨i, j, h1, h2, h3, rfl⟩)
  · have hn' : l.Pairwise (fun a b => a.2.2 ≠ b.2.2) := List.pairwise_map.1 hn
    refine List.Pairwise.imp_of_mem ?_ (hs.and hn')
    intro a b ha hb hab
    obtain ⟨i, j, -, -, -, rfl⟩ := hm a ha
    obtain ⟨i', j', -, -, -, rfl⟩ := hm b hb
    obtain ⟨h, hne⟩ := hab
    simp only [savingLe, Bool.or_eq_true, Bool.and_eq_true, decide_eq_true_eq, neg_lt_neg_iff, neg_inj] at h
    simp only [ne_eq, Prod.mk.injEq, not_and] at hne
    simp only
    rcases h with h | ⟨h1, h | ⟨h2, h | ⟨h3, h⟩⟩⟩
    · exact Or.inl h
    · exact Or.inr ⟨h1, Or.inl h⟩
    · exact Or.inr ⟨h1, Or.inr ⟨h2.symm, Or.inl h⟩⟩
    · exact Or.inr ⟨h1, Or.inr ⟨h2.symm, Or.inr ⟨h3, lt_of_le_of_ne h fun e => hne h3.symm e.symm⟩⟩⟩

theorem ranks_sort (N : ℕ) (D crit : ℕ → ℕ → ℚ) : Ranks N D crit (sortSavings (savingsRecords N D crit)) :=
  ranks_of_sorted (sortSavings_perm _) (sortSavings_sorted _)

theorem ranks_valid {N : ℕ} {D val : ℕ → ℕ → ℚ} {l : List Saving} (h : Ranks N D val l) : ValidSavings N l := by
  intro sv hsv
  obtain ⟨i, j, h1, h2, h3, rfl⟩ := h.only sv hsv
  exact ⟨⟨h1, lt_trans h2 h3⟩, ⟨le_of_lt (lt_of_le_of_lt h1 h2), h3⟩⟩

theorem ranks_all {N : ℕ} {D val : ℕ → ℕ → ℚ} {l : List Saving} (h : Ranks N D val l) :
    ∀ i j, 1 ≤ i → i < j → j < N → ∃ sv ∈ l, sv.2.2.1 = i ∧ sv.2.2.2 = j := by
  intro i j h1 h2 h3
  have : 0 < (l.map (·.2.2)).count (i, j) := by rw [h.each i j h1 h2 h3]; omega
  obtain ⟨sv, h4, h5⟩ := List.mem_map.1 (List.count_pos_iff.1 this)
  exact ⟨sv, h4, by rw [h5], by rw [h5]⟩

/-! ## The best of the runs -/

/-- The first of the candidates that no candidate beats. -/
def Winner (D : ℕ → ℕ → ℚ) (mk : Bool) (cands : List (List ℕ)) (sol : List ℕ) : Prop :=
  ∃ l r, cands = l ++ sol :: r ∧
    (∀ x ∈ l, Better mk (cost D sol, ((blocks sol).length : ℚ)) (cost D x, ((blocks x).length : ℚ))) ∧
    (∀ x ∈ r, ¬ Better mk (cost D x, ((blocks x).length : ℚ)) (cost D sol, ((blocks sol).length : ℚ)))

theorem Winner.mem {D : ℕ → ℕ → ℚ} {mk : Bool} {cands : List (List ℕ)} {sol : List ℕ}
    (h : Winner D mk cands sol) : sol ∈ cands := by
  obtain ⟨l, r, rfl, -, -⟩ := h
  simp

theorem Winner.best {D : ℕ → ℕ → ℚ} {mk : Bool} {cands : List (List ℕ)} {sol : List ℕ}
    (h : Winner D mk cands sol) : ∀ c ∈ cands,
      ¬ Better mk (cost D c, ((blocks c).length : ℚ)) (cost D sol, ((blocks sol).length : ℚ)) := by
  obtain ⟨l, r, rfl, h1, h2⟩ := h
  intro c hc
  rw [List.mem_append, List.mem_cons] at hc
  rcases hc with hc | rfl | hc
  · exact fun hb => better_irrefl mk _ (better_trans mk hb (h1 c hc))
  · exact better_irrefl mk _
  · exact h2 c hc

theorem count_depots {us : List (List ℕ)} (h : ∀ u ∈ us, ∀ x ∈ u, x ≠ 0) : (tour us).count 0 = us.length + 1 := by
  induction us with
  | nil => rfl
  | cons u us ih =>
    have h0 : u.count 0 = 0 := List.count_eq_zero.2 fun hm => h u (by simp) 0 hm rfl
    rw [tour, List.count_cons_self, List.count_append, h0, ih fun v hv => h v (List.mem_cons_of_mem _ hv), List.length_cons]
    omega

/-- The number of the routes of a solution without empty routes. -/
theorem routes_count {sol : List ℕ} (h1 : DepotEnds sol) (h2 : squeeze sol = sol) :
    (sol.count 0 : ℚ) - 1 = ((blocks sol).length : ℚ) := by
  have e : tour (blocks sol) = sol := by rw [← squeeze_depotEnds h1, h2]
  have := count_depots (us := blocks sol) fun b hb => (mem_blocks sol b hb).2
  rw [e] at this
  rw [this]
  push_cast
  ring

theorem keepBetter_winner {D : ℕ → ℕ → ℚ} {mk : Bool} {cands : List (List ℕ)} (hc : cands ≠ [])
    (hg : ∀ c ∈ cands, DepotEnds c ∧ squeeze c = c) :
    ∃ sol, (cands.foldl (keepBetter D mk) none).map (·.1) = some sol ∧ Winner D mk cands sol := by
  obtain ⟨l, s, r, e1, e2, e3, e4⟩ :=
    C04_bestOf (fun s => cost D s) (fun s => (s.count 0 : ℚ) - 1) mk cands hc
  have hs : s ∈ cands := by rw [e1]; simp
  have hk : ∀ c ∈ cands, (c.count 0 : ℚ) - 1 = ((blocks c).length : ℚ) := fun c hc =>
    routes_count (hg c hc).1 (hg c hc).2
  refine ⟨s, by rw [keepBetter_fold, e2], l, r, e1, fun x hx => ?_, fun x hx => ?_⟩
  · rw [← hk x (by rw [e1]; simp [hx]), ← hk s hs]
    exact e3 x hx
  · rw [← hk x (by rw [e1]; simp [hx]), ← hk s hs]
    exact e4 x hx

/-! ## Gaskell -/

/-- The savings procedure returns `c` for the list of savings. -/
def SavRun (N : ℕ) (D : ℕ → ℕ → ℚ) (d : ℕ → ℚ) (C L : Option ℚ) (mk : Bool) (savings : List Saving)
    (c : List ℕ) : Prop :=
  ∃ seen, parallel_savings_init N D d C L mk savings = .ok (some c, seen)

variable {N : ℕ} {D : ℕ → ℕ → ℚ} {d : ℕ → ℚ} {C L : Option ℚ} {mk : Bool}

theorem savRuns_exist (hN : 2 ≤ N) (hD : Symm D) (d : ℕ → ℚ) (C L : Option ℚ) (mk : Bool) :
    ∀ {lists : List (List Saving)}, (∀ l ∈ lists, ValidSavings N l) →
    ∃ cands, List.Forall₂ (SavRun N D d C L mk) lists cands
  | [], _ => ⟨[], .nil⟩
  | l :: t, h => by
    obtain ⟨cs, hcs⟩ := savRuns_exist hN hD d C L mk fun x hx => h x (List.mem_cons_of_mem _ hx)
    obtain ⟨c, seen, e, -, -⟩ := C25_solves hN hD d C L mk (h l (by simp))
    exact ⟨c :: cs, .cons ⟨seen, e⟩ hcs⟩

/-- What is known of a solution of the savings procedure. -/
theorem savRun_solves (hN : 2 ≤ N) (hD : Symm D) {l : List Saving} (hl : ValidSavings N l) {c : List ℕ}
    (h : SavRun N D d C L mk l c) :
    Solves N D d C L c ∧ (mk = false → cost D c ≤ cost D (trivialSol N)) := by
  obtain ⟨seen, e⟩ := h
  obtain ⟨c', seen', e', h1, h2⟩ := C25_solves hN hD d C L mk hl
  rw [e] at e'
  simp only [Except.ok.injEq, Prod.mk.injEq, Option.some.injEq] at e'
  obtain ⟨rfl, -⟩ := e'
  exact ⟨h1, h2⟩

theorem savRun_unmergeable (hN : 2 ≤ N) (hD : Symm D) (hT : Triangle D) (hd : ∀ n, 0 ≤ d n)
    {val : ℕ → ℕ → ℚ} {l : List Saving} (hl : Ranks N D val l) {c : List ℕ}
    (h : SavRun N D d C L mk l c) : Unmergeable D d C L c := by
  obtain ⟨seen, e⟩ := h
  obtain ⟨c', seen', e', h1, h2⟩ := C25_any_order hN hD hT hd C L mk (ranks_valid hl) (ranks_all hl)
  rw [e] at e'
  simp only [Except.ok.injEq, Prod.mk.injEq, Option.some.injEq] at e'
  obtain ⟨rfl, -⟩ := e'
  exact h2

theorem savAt_other {int : Option (ℕ × SavInt)} {k : ℕ} (h : ∀ k' w, int = some (k', w) → k ≠ k') :
    savAt int k = none := by
  unfold savAt
  cases int with
  | none => rfl
  | some x => exact if_neg (h x.1 x.2 rfl)

/-- The runs before the one that is interrupted, or all the runs. -/
theorem gaskellRuns_append {int : Option (ℕ × SavInt)} (rest : List (List Saving)) :
    ∀ {lists : List (List Saving)} {cands : List (List ℕ)}, List.Forall₂ (SavRun N D d C L mk) lists cands →
    ∀ (k : ℕ) (best : Option (List ℕ × ℚ × ℚ)),
    (∀ k' w, int = some (k', w) → ∀ j, k ≤ j → j < k + lists.length → j ≠ k') →
    gaskellRuns N D d C L mk int (lists ++ rest) k best =
      gaskellRuns N D d C L mk int rest (k + lists.length) (cands.foldl (keepBetter D mk) best) := by
  intro lists cands h
  induction h with
  | nil => intro k best _; rfl
  | @cons l c lists cands hr _ ih =>
    intro k best hk
    obtain ⟨seen, e⟩ := hr
    have hat : savAt int k = none := savAt_other fun k' w h => hk k' w h k (le_refl _) (by simp)
    rw [List.cons_append, gaskellRuns, e]
    simp only [hat, savCall, savCaught, Bool.false_eq_true, if_false]
    rw [ih (k + 1) _ fun k' w h j h1 h2 => hk k' w h j (by omega) (by simp only [List.length_cons]; omega)]
    simp only [List.length_cons, savKeep, List.foldl_cons]
    rw [show k + (lists.length + 1) = k + 1 + lists.length by omega]

theorem gaskellRuns_all {lists : List (List Saving)} {cands : List (List ℕ)}
    (h : List.Forall₂ (SavRun N D d C L mk) lists cands) (k : ℕ) (best : Option (List ℕ × ℚ × ℚ)) :
    gaskellRuns N D d C L mk none lists k best = .ok (.returned ((cands.foldl (keepBetter D mk) best).map (·.1))) := by
  have := gaskellRuns_append (int := none) [] h k best (by simp)
  rw [List.append_nil] at this
  rw [this]
  rfl

/-- An interrupt of the savings procedure. -/
theorem gaskellRuns_interrupted {l1 l2 : List (List Saving)} {c1 : List (List ℕ)}
    (h : List.Forall₂ (SavRun N D d C L mk) l1 c1) {savings : List Saving}
    {res : Option (List ℕ) × List (ℕ × Option (List ℕ))}
    (hr : parallel_savings_init N D d C L mk savings = .ok res) {m line : ℕ} {isol : List ℕ}
    (hm : res.2[m]? = some (line, some isol)) :
    gaskellRuns N D d C L mk (some (l1.length, .inSavings m)) (l1 ++ savings :: l2) 0 none =
      .ok (.interrupted (((c1 ++ [isol]).foldl (keepBetter D mk) none).map (·.1))) := by
  rw [gaskellRuns_append _ h 0 none (fun k' w e j h1 h2 => by
    simp only [Option.some.injEq, Prod.mk.injEq] at e; omega)]
  rw [gaskellRuns, hr]
  have hat : savAt (some (l1.length, .inSavings m)) (0 + l1.length) = some (.inSavings m) := by
    simp [savAt]
  simp only [hat, savCall, savCaught, hm, if_true, savKeep, List.foldl_append, List.foldl_cons, List.foldl_nil]

/-- An interrupt before the savings procedure. -/
theorem gaskellRuns_swallowed (hN : 2 ≤ N) (hD : Symm D) {l1 l2 : List (List Saving)} {c1 c2 : List (List ℕ)}
    (h : List.Forall₂ (SavRun N D d C L mk) l1 c1) (h' : List.Forall₂ (SavRun N D d C L mk) l2 c2)
    {savings : List Saving} (hs : ValidSavings N savings) :
    gaskellRuns N D d C L mk (some (l1.length, .before)) (l1 ++ savings :: l2) 0 none =
      .ok (.returned (((c1 ++ c2).foldl (keepBetter D mk) none).map (·.1))) := by
  obtain ⟨c, seen, e, -, -⟩ := C25_solves hN hD d C L mk hs
  rw [gaskellRuns_append _ h 0 none (fun k' w e j h1 h2 => by
    simp only [Option.some.injEq, Prod.mk.injEq] at e; omega)]
  rw [gaskellRuns, e]
  have hat : savAt (some (l1.length, .before)) (0 + l1.length) = some .before := by
    simp [savAt]
  simp only [hat, savCall, savCaught, Bool.false_eq_true, if_false, savKeep]
  have := gaskellRuns_append (int := some (l1.length, .before)) [] h' (0 + l1.length + 1)
    (c1.foldl (keepBetter D mk) none) (fun k' w e j h1 h2 => by
      simp only [Option.some.injEq, Prod.mk.injEq] at e; omega)
  rw [List.append_nil] at this
  rw [this, List.foldl_append]
  rfl

/-! ## Holmes and Parker -/

theorem supFirst_eq (N : ℕ) (D : ℕ → ℕ → ℚ) (S : List (ℕ × ℕ)) :
    supFirst N D S = sortSavings (savingsRecords N D (suppressedValue D S)) := by
  unfold supFirst
  congr 1
  congr 1
  funext i j
  simp only [suppressedValue, saved, List.contains_iff_mem]

theorem ranks_supFirst (N : ℕ) (D : ℕ → ℕ → ℚ) (S : List (ℕ × ℕ)) :
    Ranks N D (suppressedValue D S) (supFirst N D S) := by
  rw [supFirst_eq]
  exact ranks_sort _ _ _

/-- Zeroing a suppressed pair that heads the list gives the list for the larger set. -/
theorem supZero_head {S T : List (ℕ × ℕ)} (hT : ∀ p ∈ S, p ∈ T) {D : ℕ → ℕ → ℚ} :
    ∀ {l : List Saving}, (∀ sv ∈ l, sv = (suppressedValue D S sv.2.2.1 sv.2.2.2, -D sv.2.2.1 sv.2.2.2, sv.2.2)) →
    (∀ sv ∈ l.tail, sv.2.2 ∈ T → sv.2.2 ∈ S) → (∃ sv ∈ l, sv.2.2 ∉ T) →
    supZero T l = .ok (l.map fun sv => (suppressedValue D T sv.2.2.1 sv.2.2.2, sv.2))
  | [], _, _, h => by obtain ⟨sv, h, -⟩ := h; cases h
  | sv :: rest, h1, h3, h4 => by
    have hsame : ∀ x ∈ rest, (suppressedValue D T x.2.2.1 x.2.2.2, x.2) = x := by
      intro x hx
      have := h1 x (List.mem_cons_of_mem _ hx)
      have h5 := h3 x hx
      have e : suppressedValue D T x.2.2.1 x.2.2.2 = suppressedValue D S x.2.2.1 x.2.2.2 := by
        unfold suppressedValue
        by_cases hx' : x.2.2 ∈ T
        · rw [if_pos (show (x.2.2.1, x.2.2.2) ∈ T from hx'), if_pos (show (x.2.2.1, x.2.2.2) ∈ S from h5 hx')]
        · rw [if_neg (show (x.2.2.1, x.2.2.2) ∉ T from hx'),
            if_neg (show (x.2.2.1, x.2.2.2) ∉ S from fun h => hx' (hT _ h))]
      rw [e]
      conv_rhs => rw [this]
      rw [this]
    have hsv := h1 sv (by simp)
    unfold supZero
    by_cases hc : sv.2.2 ∈ T
    · rw [if_pos (by simpa using hc)]
      rw [supZero_head hT (fun x hx => h1 x (List.mem_cons_of_mem _ hx))
        (fun x hx => h3 x (List.mem_of_mem_tail hx)) (by
          obtain ⟨x, hx, hx'⟩ := h4
          rcases List.mem_cons.1 hx with rfl | hx
          · exact absurd hc hx'
          · exact ⟨x, hx, hx'⟩)]
      simp only [List.map_cons]
      rw [show suppressedValue D T sv.2.2.1 sv.2.2.2 = 0 from if_pos hc]
    · rw [if_neg (by simpa using hc)]
      have : rest.map (fun sv => (suppressedValue D T sv.2.2.1 sv.2.2.2, sv.2)) = rest := by
        conv_rhs => rw [← List.map_id rest]
        exact List.map_congr_left fun x hx => hsame x hx
      rw [List.map_cons, this]
      congr 2
      have e : suppressedValue D T sv.2.2.1 sv.2.2.2 = suppressedValue D S sv.2.2.1 sv.2.2.2 := by
        unfold suppressedValue
        rw [if_neg (show (sv.2.2.1, sv.2.2.2) ∉ T from hc),
          if_neg (show (sv.2.2.1, sv.2.2.2) ∉ S from fun h => hc (hT _ h))]
      rw [e]
      conv_lhs => rw [hsv]
      rw [hsv]

theorem records_length_from (a : ℕ) : ∀ m : ℕ,
    2 * ((pyRange a (a + m)).map fun i => (a + m) - (i + 1)).sum = m * m - m
  | 0 => by simp [pyRange]
  | m + 1 => by
    rw [pyRange_cons (by omega), List.map_cons, List.sum_cons, Nat.mul_add]
    have h := records_length_from (a + 1) m
    rw [show a + (m + 1) = a + 1 + m by omega, h, show a + 1 + m - (a + 1) = m by omega]
    have : m ≤ m * m := by nlinarith [Nat.zero_le m, Nat.le_mul_self m]
    rw [Nat.add_mul, Nat.mul_add]
    omega

/-- The number of the pairs. -/
theorem savingsRecords_length (N : ℕ) (D crit : ℕ → ℕ → ℚ) (hN : 1 ≤ N) :
    (savingsRecords N D crit).length = ((N - 1) * (N - 1) - (N - 1)) / 2 := by
  have h := records_length_from 1 (N - 1)
  rw [show 1 + (N - 1) = N by omega] at h
  rw [← h]
  unfold savingsRecords
  rw [List.length_flatMap]
  simp only [List.length_map, pyRange, List.length_range']
  omega

theorem supFirst_mem {N : ℕ} {D : ℕ → ℕ → ℚ} {S : List (ℕ × ℕ)} :
    ∀ sv ∈ supFirst N D S, sv = (suppressedValue D S sv.2.2.1 sv.2.2.2, -D sv.2.2.1 sv.2.2.2, sv.2.2) := by
  intro sv h
  obtain ⟨i, j, -, -, -, rfl⟩ := (ranks_supFirst N D S).only sv h
  rfl

theorem supFirst_length {N : ℕ} (hN : 1 ≤ N) (D : ℕ → ℕ → ℚ) (S : List (ℕ × ℕ)) :
    (supFirst N D S).length = ((N - 1) * (N - 1) - (N - 1)) / 2 := by
  rw [supFirst_eq, (sortSavings_perm _).length_eq, savingsRecords_length _ _ _ hN]

theorem supFirst_pairs (N : ℕ) (D : ℕ → ℕ → ℚ) (S : List (ℕ × ℕ)) : ((supFirst N D S).map (·.2.2)).Nodup := by
  rw [supFirst_eq]
  exact ((sortSavings_perm _).map _).nodup_iff.2 (savingsRecords_nodup _ _ _)

/-- The list for a larger set is what one gets by a new valuation. -/
theorem supFirst_revalue (N : ℕ) (D : ℕ → ℕ → ℚ) (S T : List (ℕ × ℕ)) :
    sortSavings ((supFirst N D S).map fun sv => (suppressedValue D T sv.2.2.1 sv.2.2.2, sv.2)) = supFirst N D T := by
  have h : ((supFirst N D S).map fun sv => (suppressedValue D T sv.2.2.1 sv.2.2.2, sv.2)).Perm
      (savingsRecords N D (suppressedValue D T)) := by
    rw [supFirst_eq]
    refine ((sortSavings_perm _).map _).trans (List.Perm.of_eq ?_)
    unfold savingsRecords
    simp only [List.map_flatMap, List.map_map]
    rfl
  rw [supFirst_eq N D T]
  exact savings_unique ((sortSavings_perm _).trans (h.trans (sortSavings_perm _).symm))
    (sortSavings_sorted _) (sortSavings_sorted _)

theorem mem_setAddP {s : List (ℕ × ℕ)} {p q : ℕ × ℕ} :
    q ∈ supression_savings_function.setAddP s p ↔ q ∈ s ∨ q = p := by
  unfold supression_savings_function.setAddP
  split
  · rename_i h
    rw [List.contains_iff_mem] at h
    exact ⟨Or.inl, fun h' => h'.elim id fun e => e ▸ h⟩
  · simp

theorem length_setAddP (s : List (ℕ × ℕ)) (p : ℕ × ℕ) :
    (supression_savings_function.setAddP s p).length ≤ s.length + 1 := by
  unfold supression_savings_function.setAddP
  split <;> simp

/-- The states of the savings function: before the first call, or with the list of the last call, whose head
was suppressed after it. -/
def SupOk (N : ℕ) (D : ℕ → ℕ → ℚ) (s : SupState) : Prop :=
  s.cache = [] ∨ ∃ S, s.cache = supFirst N D S ∧ (∀ p ∈ S, p ∈ s.suppressed) ∧
    ∀ sv ∈ (supFirst N D S).tail, sv.2.2 ∈ s.suppressed → sv.2.2 ∈ S

/-- The cache is transparent: the list is that of the suppressed pairs. -/
theorem supFunction_spec {N : ℕ} (hN : 1 ≤ N) {D : ℕ → ℕ → ℚ} {s : SupState} (hs : SupOk N D s)
    (hl : s.suppressed.length < ((N - 1) * (N - 1) - (N - 1)) / 2) :
    ∃ sv rest, supFirst N D s.suppressed = sv :: rest ∧
      supression_savings_function N D s = .ok (supFirst N D s.suppressed,
        ⟨supression_savings_function.setAddP s.suppressed sv.2.2, supFirst N D s.suppressed⟩) ∧
      SupOk N D ⟨supression_savings_function.setAddP s.suppressed sv.2.2, supFirst N D s.suppressed⟩ := by
  have hlen := supFirst_length hN D s.suppressed
  obtain ⟨sv, rest, e⟩ : ∃ sv rest, supFirst N D s.suppressed = sv :: rest := by
    cases h : supFirst N D s.suppressed with
    | nil => rw [h] at hlen; simp only [List.length_nil] at hlen; omega
    | cons sv rest => exact ⟨sv, rest, rfl⟩
  refine ⟨sv, rest, e, ?_, ?_⟩
  · have h1 : (if s.cache = [] then .ok (supFirst N D s.suppressed) else supAgain s : Py (List Saving)) =
        .ok (supFirst N D s.suppressed) := by
      rcases hs with h | ⟨S, h1, h2, h3⟩
      · rw [if_pos h]
      · by_cases hc : s.cache = []
        · rw [if_pos hc]
        · rw [if_neg hc]
          unfold supAgain
          rw [h1, supZero_head h2 supFirst_mem h3 ?_]
          · simp only [supFirst_revalue]
          · by_contra hall
            push Not at hall
            have hsub : (supFirst N D S).map (·.2.2) ⊆ s.suppressed := by
              intro p hp
              obtain ⟨x, hx, rfl⟩ := List.mem_map.1 hp
              exact hall x hx
            have := ((supFirst_pairs N D S).subperm hsub).length_le
            rw [List.length_map, supFirst_length hN] at this
            omega
    unfold supression_savings_function
    rw [h1]
    simp only [e, idx]
    rfl
  · refine Or.inr ⟨s.suppressed, rfl, fun p hp => mem_setAddP.2 (Or.inl hp), fun x hx hx' => ?_⟩
    rcases mem_setAddP.1 hx' with h | h
    · exact h
    · exfalso
      have := supFirst_pairs N D s.suppressed
      rw [e, List.map_cons, List.nodup_cons] at this
      rw [e, List.tail_cons] at hx
      exact this.1 (List.mem_map.2 ⟨x, hx, h⟩)

/-- The lists of so many runs, when pairs are already suppressed. -/
def supLists (N : ℕ) (D : ℕ → ℕ → ℚ) : ℕ → List (ℕ × ℕ) → List (List Saving)
  | 0, _ => []
  | runs + 1, S => supFirst N D S :: supLists N D runs
      (match supFirst N D S with
        | [] => S
        | sv :: _ => supression_savings_function.setAddP S sv.2.2)

theorem supLists_length (N : ℕ) (D : ℕ → ℕ → ℚ) : ∀ (runs : ℕ) (S : List (ℕ × ℕ)),
    (supLists N D runs S).length = runs
  | 0, _ => rfl
  | runs + 1, S => by rw [supLists, List.length_cons, supLists_length N D runs]

/-- The pairs at the heads of lists. -/
def headPairs (lists : List (List Saving)) : List (ℕ × ℕ) := lists.filterMap fun l => l.head?.map (·.2.2)

theorem suppressedValue_congr {D : ℕ → ℕ → ℚ} {S T : List (ℕ × ℕ)} (h : ∀ p, p ∈ S ↔ p ∈ T) :
    suppressedValue D S = suppressedValue D T := by
  funext i j
  unfold suppressedValue
  by_cases hp : (i, j) ∈ S
  · rw [if_pos hp, if_pos ((h _).1 hp)]
  · rw [if_neg hp, if_neg fun h' => hp ((h _).2 h')]

theorem supLists_ranks (N : ℕ) (D : ℕ → ℕ → ℚ) : ∀ (runs : ℕ) (S : List (ℕ × ℕ)) (t : ℕ) (l : List Saving),
    (supLists N D runs S)[t]? = some l →
    Ranks N D (suppressedValue D (S ++ headPairs ((supLists N D runs S).take t))) l
  | 0, _, t, l, h => by simp [supLists] at h
  | runs + 1, S, 0, l, h => by
    simp only [supLists, List.getElem?_cons_zero, Option.some.injEq] at h
    subst h
    simpa [headPairs] using ranks_supFirst N D S
  | runs + 1, S, t + 1, l, h => by
    rw [supLists, List.getElem?_cons_succ] at h
    have := supLists_ranks N D runs _ t l h
    refine (suppressedValue_congr fun p => ?_) ▸ this
    rw [supLists, List.take_succ_cons]
    simp only [headPairs, List.filterMap_cons]
    cases e : supFirst N D S with
    | nil => simp
    | cons sv rest =>
      simp only [List.head?_cons, Option.map_some, List.mem_append, List.mem_cons, mem_setAddP]
      tauto

/-- Without interrupts between the runs the heuristic is that of Gaskell on the lists. -/
theorem supRuns_eq {N : ℕ} (hN : 1 ≤ N) {D : ℕ → ℕ → ℚ} (d : ℕ → ℚ) (C L : Option ℚ) (mk : Bool)
    {int : Option (ℕ × SavInt)} (hi : ∀ k, int ≠ some (k, .before)) :
    ∀ (runs k : ℕ) (s : SupState) (best : Option (List ℕ × ℚ × ℚ)), SupOk N D s →
    s.suppressed.length + runs ≤ ((N - 1) * (N - 1) - (N - 1)) / 2 →
    supRuns N D d C L mk int runs k s best = gaskellRuns N D d C L mk int (supLists N D runs s.suppressed) k best
  | 0, _, _, _, _, _ => rfl
  | runs + 1, k, s, best, hs, hl => by
    obtain ⟨sv, rest, e, e1, h⟩ := supFunction_spec hN hs (by omega)
    have hw : savAt int k ≠ some .before := by
      unfold savAt
      cases int with
      | none => simp
      | some x =>
        obtain ⟨k', w⟩ := x
        simp only
        split
        · intro hx
          simp only [Option.some.injEq] at hx
          exact hi k' (by rw [hx])
        · simp
    have hlen := length_setAddP s.suppressed sv.2.2
    have ih := fun b => supRuns_eq hN d C L mk hi runs (k + 1) _ b h (by simp only; omega)
    rw [supLists, gaskellRuns]
    unfold supRuns
    rcases hw' : savAt int k with _ | (_ | m | _)
    · simp only [e1]
      cases parallel_savings_init N D d C L mk (supFirst N D s.suppressed) with
      | error x => rfl
      | ok res =>
        simp only [ih]
        simp only [e]
    · exact absurd hw' hw
    · simp only [e1]
      cases parallel_savings_init N D d C L mk (supFirst N D s.suppressed) with
      | error x => rfl
      | ok res =>
        simp only [ih]
        simp only [e]
    · simp only [e1]
      cases parallel_savings_init N D d C L mk (supFirst N D s.suppressed) with
      | error x => rfl
      | ok res =>
        simp only [ih]
        simp only [e]

/-- An interrupt between the runs: its run is left out. -/
theorem supRuns_before {N : ℕ} (hN : 1 ≤ N) {D : ℕ → ℕ → ℚ} (d : ℕ → ℚ) (C L : Option ℚ) (mk : Bool) (k0 : ℕ) :
    ∀ (runs k : ℕ) (s : SupState) (best : Option (List ℕ × ℚ × ℚ)), SupOk N D s →
    s.suppressed.length + runs ≤ ((N - 1) * (N - 1) - (N - 1)) / 2 → k ≤ k0 → k0 < k + runs →
    supRuns N D d C L mk (some (k0, .before)) runs k s best =
      gaskellRuns N D d C L mk none (supLists N D (runs - 1) s.suppressed) 0 best
  | 0, _, _, _, _, _, _, _ => by omega
  | runs + 1, k, s, best, hs, hl, h1, h2 => by
    have hnone : ∀ (lists : List (List Saving)) (k k' : ℕ) best, gaskellRuns N D d C L mk none lists k best =
        gaskellRuns N D d C L mk none lists k' best := by
      intro lists
      induction lists with
      | nil => intros; rfl
      | cons l t ih =>
        intro k k' best
        unfold gaskellRuns
        cases parallel_savings_init N D d C L mk l with
        | error x => rfl
        | ok res =>
          simp only [savAt]
          rw [ih (k + 1) (k' + 1)]
          rfl
    have hlate : ∀ (runs k : ℕ) (s : SupState) best, k0 < k →
        supRuns N D d C L mk (some (k0, .before)) runs k s best = supRuns N D d C L mk none runs k s best := by
      intro runs
      induction runs with
      | zero => intros; rfl
      | succ runs ih =>
        intro k s best hk
        unfold supRuns
        rw [show savAt (some (k0, SavInt.before)) k = none from if_neg (by omega), show savAt none k = none from rfl]
        simp only
        cases supression_savings_function N D s with
        | error x => rfl
        | ok r =>
          obtain ⟨savings, s'⟩ := r
          simp only
          cases parallel_savings_init N D d C L mk savings with
          | error x => rfl
          | ok res => simp only [ih (k + 1) _ _ (by omega)]
    by_cases hk : k = k0
    · subst hk
      unfold supRuns
      rw [show savAt (some (k, SavInt.before)) k = some .before from if_pos rfl]
      simp only
      rw [hlate _ _ _ _ (by omega), supRuns_eq hN d C L mk (by simp) runs (k + 1) s best hs (by omega)]
      exact hnone _ _ _ _
    · obtain ⟨runs, rfl⟩ : ∃ r, runs = r + 1 := ⟨runs - 1, by omega⟩
      obtain ⟨sv, rest, e, e1, h⟩ := supFunction_spec hN hs (by omega)
      have hlen := length_setAddP s.suppressed sv.2.2
      have ih := fun b => supRuns_before hN d C L mk k0 (runs + 1) (k + 1) _ b h (by simp only; omega) (by omega) (by omega)
      rw [show runs + 1 + 1 - 1 = runs + 1 by omega, supLists, gaskellRuns]
      rw [show runs + 1 - 1 = runs by omega] at ih
      rw [supRuns, show savAt (some (k0, SavInt.before)) k = none from if_neg (by omega), show savAt none 0 = none from rfl]
      simp only [e1]
      cases parallel_savings_init N D d C L mk (supFirst N D s.suppressed) with
      | error x => rfl
      | ok res =>
        simp only [ih]
        simp only [e]
        rw [hnone _ 0 (0 + 1)]

end Verif
