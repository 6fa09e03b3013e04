import Verif.Props.Cmt
import Verif.Model.CmtInterrupt
import Verif.Lemmas.Paessens

/-! # C42: interrupts of the two phase heuristic of Christofides, Mingozzi and Toth -/

namespace Verif
open Spec

theorem cmt_tour_count {us : List (List ℕ)} (h : ∀ u ∈ us, ∀ x ∈ u, x ≠ 0) : (tour us).count 0 = us.length + 1 := by
  induction us with
  | nil => rfl
  | cons u us ih =>
    have h0 : u.count 0 = 0 := List.count_eq_zero.2 fun hm => h u (by simp) 0 hm rfl
    rw [tour, List.count_cons_self, List.count_append, h0, ih fun v hv => h v (List.mem_cons_of_mem _ hv), List.length_cons]
    omega

/-- A solution with its cost and the number of its routes. -/
def cmtRanked (D : ℕ → ℕ → ℚ) (s : List ℕ) : List ℕ × ℚ × ℚ := (s, rank D s)

theorem cmtScored_solves {N : ℕ} {D : ℕ → ℕ → ℚ} {d : ℕ → ℚ} {C L : Option ℚ} {s : List ℕ} (h : Solves N D d C L s) :
    cmtScored D s = cmtRanked D s := by
  have : s = tour (blocks s) := by rw [← squeeze_depotEnds h.ends, h.noEmpty]
  have hc := cmt_tour_count (us := blocks s) fun u hu => (mem_blocks s u hu).2
  rw [← this] at hc
  unfold cmtScored cmtRanked rank
  rw [without_empty_self h, objf_eq_cost, hc]
  push_cast
  rw [add_sub_cancel_right]

/-- The record of the best solution so far. -/
def cmtRecord (D : ℕ → ℕ → ℚ) : Option (List ℕ) → CmtBest
  | none => ⟨none, none, none⟩
  | some s => ⟨some s, some (rank D s).1, some (rank D s).2⟩

/-- Nothing in a list of solutions is better than what is passed on. -/
def NoneBetter (D : ℕ → ℕ → ℚ) (mk : Bool) (known : List (List ℕ)) (sol : List ℕ) : Prop :=
  sol ∈ known ∧ ∀ s ∈ known, ¬ Better mk (rank D s) (rank D sol)

theorem better_asymm (mk : Bool) {x y : ℚ × ℚ} (h : Better mk x y) : ¬ Better mk y x :=
  fun h2 => better_irrefl mk _ (better_trans mk h h2)

theorem is_better_rank (D : ℕ → ℕ → ℚ) (mk : Bool) (s t : List ℕ) :
    is_better_sol (some (rank D s).1) (some (rank D s).2) (some (rank D t).1) (some (rank D t).2) mk = true ↔
      Better mk (rank D t) (rank D s) := by
  rw [C04_decides]

theorem cmtPassOn_spec (D : ℕ → ℕ → ℚ) (mk : Bool) (one two o : Option (List ℕ)) :
    (one = none ∧ two = none ∧ o = none ∧ cmtPassOn mk (one.map (cmtRanked D)) (two.map (cmtRanked D)) (cmtRecord D o) = none) ∨
    ∃ s, cmtPassOn mk (one.map (cmtRanked D)) (two.map (cmtRanked D)) (cmtRecord D o) = some s ∧
      NoneBetter D mk (one.toList ++ two.toList ++ o.toList) s := by
  have irr := better_irrefl mk
  -- the better one of a candidate and the record
  have single : ∀ (c : List ℕ), is_better_sol (cmtRecord D o).f (cmtRecord D o).K (some (rank D c).1) (some (rank D c).2) mk = true ↔
      ∀ t, o = some t → Better mk (rank D c) (rank D t) := by
    intro c
    cases o with
    | none => simp [cmtRecord, is_better_sol]
    | some t => simp only [cmtRecord, is_better_rank]; simp
  have nn : ∀ x y : Option ℚ, is_better_sol x y none none mk = false := fun x y => rfl
  unfold cmtPassOn
  cases one with
  | none =>
    cases two with
    | none =>
      simp only [Option.map_none, nn, Bool.false_and, Bool.false_eq_true, if_false, Bool.and_false]
      cases o with
      | none => exact .inl ⟨trivial, trivial, rfl, rfl⟩
      | some t => exact .inr ⟨t, rfl, by simp, by simpa using irr _⟩
    | some c =>
      right
      simp only [Option.map_none, Option.map_some, nn, Bool.false_and, Bool.false_eq_true, if_false, Bool.not_false, Bool.true_and,
        cmtRanked]
      by_cases h : is_better_sol (cmtRecord D o).f (cmtRecord D o).K (some (rank D c).1) (some (rank D c).2) mk = true
      · rw [if_pos h]
        rw [single] at h
        refine ⟨c, rfl, by simp, fun s hs => ?_⟩
        simp only [Option.toList_none, List.nil_append, List.mem_append, Option.mem_toList, Option.mem_def] at hs
        rcases hs with hs | hs
        · injection hs with hs; rw [hs]; exact irr _
        · exact better_asymm mk (h s hs)
      · rw [if_neg h]
        rw [single] at h
        push Not at h
        obtain ⟨t, rfl, h⟩ := h
        refine ⟨t, rfl, by simp, fun s hs => ?_⟩
        simp only [Option.toList_none, List.nil_append, List.mem_append, Option.mem_toList, Option.mem_def] at hs
        rcases hs with hs | hs
        · injection hs with hs; rw [← hs]; exact h
        · injection hs with hs; rw [hs]; exact irr _
  | some b =>
    right
    cases two with
    | none =>
      have h0 : is_better_sol none none (some (rank D b).1) (some (rank D b).2) mk = true := rfl
      simp only [Option.map_none, Option.map_some, cmtRanked, h0, Bool.true_and, Bool.not_true, Bool.false_and, Bool.false_eq_true,
        if_false]
      by_cases h : is_better_sol (cmtRecord D o).f (cmtRecord D o).K (some (rank D b).1) (some (rank D b).2) mk = true
      · rw [if_pos h]
        rw [single] at h
        refine ⟨b, rfl, by simp, fun s hs => ?_⟩
        simp only [Option.toList_none, List.append_nil, List.mem_append, Option.mem_toList, Option.mem_def] at hs
        rcases hs with hs | hs
        · injection hs with hs; rw [hs]; exact irr _
        · exact better_asymm mk (h s hs)
      · rw [if_neg h]
        rw [single] at h
        push Not at h
        obtain ⟨t, rfl, h⟩ := h
        refine ⟨t, rfl, by simp, fun s hs => ?_⟩
        simp only [Option.toList_none, List.append_nil, List.mem_append, Option.mem_toList, Option.mem_def] at hs
        rcases hs with hs | hs
        · injection hs with hs; rw [← hs]; exact h
        · injection hs with hs; rw [hs]; exact irr _
    | some c =>
      simp only [Option.map_some, cmtRanked]
      by_cases hp : is_better_sol (some (rank D c).1) (some (rank D c).2) (some (rank D b).1) (some (rank D b).2) mk = true
      · have hp' := (is_better_rank D mk c b).1 hp
        simp only [hp, Bool.true_and, Bool.not_true, Bool.false_and, Bool.false_eq_true, if_false]
        by_cases h : is_better_sol (cmtRecord D o).f (cmtRecord D o).K (some (rank D b).1) (some (rank D b).2) mk = true
        · rw [if_pos h]
          rw [single] at h
          refine ⟨b, rfl, by simp, fun s hs => ?_⟩
          simp only [List.mem_append, Option.mem_toList, Option.mem_def] at hs
          rcases hs with (hs | hs) | hs
          · injection hs with hs; rw [hs]; exact irr _
          · injection hs with hs; rw [← hs]; exact better_asymm mk hp'
          · exact better_asymm mk (h s hs)
        · rw [if_neg h]
          rw [single] at h
          push Not at h
          obtain ⟨t, rfl, h⟩ := h
          refine ⟨t, rfl, by simp, fun s hs => ?_⟩
          simp only [List.mem_append, Option.mem_toList, Option.mem_def] at hs
          rcases hs with (hs | hs) | hs
          · injection hs with hs; rw [← hs]; exact h
          · injection hs with hs; rw [← hs]; exact better_neg_trans mk (better_asymm mk hp') h
          · injection hs with hs; rw [hs]; exact irr _
      · have hp' : ¬ Better mk (rank D b) (rank D c) := by rw [← is_better_rank]; exact hp
        have hpf : is_better_sol (some (rank D c).1) (some (rank D c).2) (some (rank D b).1) (some (rank D b).2) mk = false := by
          simpa using hp
        simp only [hpf, Bool.false_and, Bool.false_eq_true, if_false, Bool.not_false, Bool.true_and]
        by_cases h : is_better_sol (cmtRecord D o).f (cmtRecord D o).K (some (rank D c).1) (some (rank D c).2) mk = true
        · rw [if_pos h]
          rw [single] at h
          refine ⟨c, rfl, by simp, fun s hs => ?_⟩
          simp only [List.mem_append, Option.mem_toList, Option.mem_def] at hs
          rcases hs with (hs | hs) | hs
          · injection hs with hs; rw [← hs]; exact hp'
          · injection hs with hs; rw [hs]; exact irr _
          · exact better_asymm mk (h s hs)
        · rw [if_neg h]
          rw [single] at h
          push Not at h
          obtain ⟨t, rfl, h⟩ := h
          refine ⟨t, rfl, by simp, fun s hs => ?_⟩
          simp only [List.mem_append, Option.mem_toList, Option.mem_def] at hs
          rcases hs with (hs | hs) | hs
          · injection hs with hs; rw [← hs]; exact better_neg_trans mk hp' h
          · injection hs with hs; rw [← hs]; exact h
          · injection hs with hs; rw [hs]; exact irr _

theorem cmtOneRounds_reach {N : ℕ} {D : ℕ → ℕ → ℚ} {d : ℕ → ℚ} {C L : Option ℚ} {tsp : CmtTsp}
    (ht : TspRoutine D tsp) (hw : NoWorse D tsp) (lam : ℚ) {m : CmtSeed} (hm : m ≠ .other) (k : ℕ) {us : List (List ℕ)} {s : CmtOne}
    (h : CmtOneInv N D d C L (Serviceable N D d C L) us s) :
    ∃ s', cmtOneRounds D d C L tsp lam m k s = .ok s' ∧ CmtOneReach D d C L tsp lam m s s' := by
  induction k generalizing us s with
  | zero => exact ⟨s, rfl, .refl⟩
  | succ k ih =>
    by_cases hu : s.unrouted = []
    · exact ⟨s, by rw [cmtOneRounds, if_pos hu], .refl⟩
    · obtain ⟨u, s1, g1, g2, _⟩ := cmtOneStep_spec ht (fun h => h) (fun _ => hw) lam hm h hu
      obtain ⟨s', k1, k2⟩ := ih g2
      refine ⟨s', by rw [cmtOneRounds, if_neg hu, g1]; exact k1, ?_⟩
      exact Relation.ReflTransGen.head ⟨hu, g1⟩ k2

theorem cmtTwoRounds_reach {N : ℕ} {D : ℕ → ℕ → ℚ} {d : ℕ → ℚ} {C L : Option ℚ} {P : Prop} {tsp : CmtTsp}
    (ht : TspRoutine D tsp) {p : CmtParams} (hs : p.ShuffleOk) (hK : p.seeds ≠ []) (k : ℕ) {s : CmtTwo}
    (h : CmtTwoInv N p.seeds.length D d C L P s) :
    ∃ s', cmtTwoRounds D d C L tsp p k s = .ok s' ∧ CmtTwoReach D d C L tsp p s s' := by
  induction k generalizing s with
  | zero => exact ⟨s, rfl, .refl⟩
  | succ k ih =>
    by_cases hu : s.unrouted = []
    · exact ⟨s, by rw [cmtTwoRounds, if_pos hu], .refl⟩
    · match hr : cmtRefill p s with
      | none => exact ⟨s, by rw [cmtTwoRounds, if_neg hu, hr], .refl⟩
      | some z =>
        obtain ⟨g1, g2, _⟩ := cmtRefill_spec hs hK h hr
        obtain ⟨s2, k1, k2, _⟩ := cmtTwoStep_spec ht (p := p) g1 g2
        obtain ⟨s', j1, j2⟩ := ih k2
        refine ⟨s', by rw [cmtTwoRounds, if_neg hu, hr]; simp only; rw [k1]; exact j1, ?_⟩
        exact Relation.ReflTransGen.head ⟨z, hr, k1⟩ j2

/-- What is known in an attempt when it is interrupted: the solution of the first phase if this was done, and what the phase that
was interrupted makes of its routes, each of the other customers on a route of its own. -/
structure CmtKnown (a : CmtArgs) (l : CmtLuck) (w : CmtWhen) (known : List (List ℕ)) : Prop where
  before : w = .before → known = []
  one : ∀ k, w = .one k → ∃ s, CmtOneReach a.D a.d a.C a.L a.tsp a.lam a.seed ⟨l.order1, [], [], 0⟩ s ∧
    known = [cmtOneInterrupted s.sol s.unrouted]
  between : w = .between → ∃ seeds sol f F, (∀ fuel ≥ F, cmt_phase_one a.D a.d a.C a.L a.tsp a.lam a.seed l.order1 fuel =
    .ok (some (seeds, sol, f))) ∧ known = [sol]
  two : ∀ k, w = .two k → ∃ seeds sol f F s, (∀ fuel ≥ F, cmt_phase_one a.D a.d a.C a.L a.tsp a.lam a.seed l.order1 fuel =
      .ok (some (seeds, sol, f))) ∧
    CmtTwoReach a.D a.d a.C a.L a.tsp ⟨seeds, a.mu, a.most, cmtRep a.rep seeds.length, l.shuffle, l.partition⟩
      (cmtTwoInit a.D a.d a.C ⟨seeds, a.mu, a.most, cmtRep a.rep seeds.length, l.shuffle, l.partition⟩ l.order2) s ∧
    known = [sol, cmtTwoInterrupted a.tsp s]

theorem attempt_interrupted {N : ℕ} (hN : 2 ≤ N) {a : CmtArgs} (ht : TspRoutine a.D a.tsp) (hw : NoWorse a.D a.tsp)
    (hm : a.seed ≠ .other) {l : CmtLuck} (hl : l.Ok N) (w : CmtWhen) (o : Option (List ℕ)) :
    ∃ known F, CmtKnown a l w known ∧ (∀ s ∈ known, Solves N a.D a.d a.C a.L s) ∧
      ((w = .before ∧ o = none ∧ ∀ fuel ≥ F, cmtAttemptInterrupted a l w (cmtRecord a.D o) fuel = .ok (some none)) ∨
        ∃ sol, NoneBetter a.D a.minimize_K (known ++ o.toList) sol ∧
          ∀ fuel ≥ F, cmtAttemptInterrupted a l w (cmtRecord a.D o) fuel = .ok (some (some sol))) := by
  obtain ⟨seeds, sol, h1, h2, h3, h4, h5⟩ := C38_phase_one a.D a.d a.C a.L ht hw a.lam hm hl.order1
  have hr1 : (sol, cost a.D sol, (seeds.length : ℚ)) = cmtRanked a.D sol := by rw [cmtRanked, rank, h4]
  cases w with
  | before =>
    refine ⟨[], 0, ⟨fun _ => rfl, (by simp), (by simp), (by simp)⟩, by simp, ?_⟩
    rcases cmtPassOn_spec a.D a.minimize_K none none o with ⟨-, -, g1, g2⟩ | ⟨s, g1, g2⟩
    · exact .inl ⟨rfl, g1, fun fuel _ => by rw [cmtAttemptInterrupted, cmtHandler]; exact congrArg (fun x => Except.ok (some x)) g2⟩
    · exact .inr ⟨s, by simpa using g2, fun fuel _ => by
        rw [cmtAttemptInterrupted, cmtHandler]; exact congrArg (fun x => Except.ok (some x)) g1⟩
  | one k =>
    obtain ⟨s, r1, r2⟩ := cmtOneRounds_reach ht hw a.lam hm k (cmtOneInit_inv a.D a.d a.C a.L _ hl.order1)
    have hsol := C38_interrupted a.D a.d a.C a.L ht hw a.lam hm hl.order1 r2
    refine ⟨[cmtOneInterrupted s.sol s.unrouted], 0, ⟨by simp, fun k' _ => ⟨s, r2, rfl⟩, by simp, by simp⟩, by simpa using hsol, ?_⟩
    rcases cmtPassOn_spec a.D a.minimize_K (some (cmtOneInterrupted s.sol s.unrouted)) none o with ⟨g1, -⟩ | ⟨t, g1, g2⟩
    · cases g1
    · refine .inr ⟨t, by simpa using g2, fun fuel _ => ?_⟩
      rw [cmtAttemptInterrupted]
      rw [r1]
      dsimp only [cmtHandler, Option.map]
      rw [cmtScored_solves hsol]
      exact congrArg (fun x => Except.ok (some x)) g1
  | between =>
    refine ⟨[sol], l.order1.length + 1, ⟨by simp, by simp, fun _ => ⟨seeds, sol, _, l.order1.length + 1, fun fuel hf => h5 fuel hf, rfl⟩,
      by simp⟩, by simpa using h1, ?_⟩
    rcases cmtPassOn_spec a.D a.minimize_K (some sol) none o with ⟨g1, -⟩ | ⟨t, g1, g2⟩
    · cases g1
    · refine .inr ⟨t, by simpa using g2, fun fuel hf => ?_⟩
      rw [cmtAttemptInterrupted]
      rw [h5 fuel hf]
      dsimp only [cmtHandler, Option.map]
      rw [hr1]
      exact congrArg (fun x => Except.ok (some x)) g1
  | two k =>
    have hne : seeds ≠ [] := by
      intro e
      rw [e] at h4
      have h0 : blocks sol = [] := List.length_eq_zero_iff.1 h4.symm
      rw [blocks_eq_nil_iff] at h0
      have : customers sol = [] := by
        unfold customers
        rw [List.filter_eq_nil_iff]
        intro x hx
        simp [h0 x hx]
      have hc := h1.covers
      rw [Covers, this] at hc
      have := hc.length_eq
      simp at this
      omega
    have hsh : CmtParams.ShuffleOk ⟨seeds, a.mu, a.most, cmtRep a.rep seeds.length, l.shuffle, l.partition⟩ :=
      fun s hs => by have := hl.shuffle s; rw [hs] at this; exact this
    obtain ⟨s, r1, r2⟩ := cmtTwoRounds_reach (P := Serviceable N a.D a.d a.C a.L) (C := a.C) (L := a.L) ht hsh hne k
      (cmtTwoInit_inv (fun h => h) h2 h3 hl.order2)
    have hsol := C42_interrupted_partial a.D a.d a.C a.L ht hw hsh hne h2 h3 hl.order2 r2
    refine ⟨[sol, cmtTwoInterrupted a.tsp s], l.order1.length + 1, ⟨by simp, by simp, by simp, fun k' _ =>
      ⟨seeds, sol, _, l.order1.length + 1, s, fun fuel hf => h5 fuel hf, r2, rfl⟩⟩, by
        intro x hx
        simp only [List.mem_cons, List.not_mem_nil, or_false] at hx
        rcases hx with rfl | rfl
        · exact h1
        · exact hsol, ?_⟩
    rcases cmtPassOn_spec a.D a.minimize_K (some sol) (some (cmtTwoInterrupted a.tsp s)) o with ⟨g1, -⟩ | ⟨t, g1, g2⟩
    · cases g1
    · refine .inr ⟨t, by simpa using g2, fun fuel hf => ?_⟩
      rw [cmtAttemptInterrupted]
      rw [h5 fuel hf]
      dsimp only
      rw [r1]
      dsimp only [cmtHandler, Option.map]
      rw [hr1, cmtScored_solves hsol]
      exact congrArg (fun x => Except.ok (some x)) g1

/-- **C42**, interrupts of the heuristic between two rounds of a phase or outside of the phases, in any of the attempts: what is
passed on is complete and keeps the limits if every customer alone does. It is the best one of the solutions of the attempts made
before and of what is known of the attempt that was interrupted, its first phase included if this was done. Nothing is
passed on only if the interrupt comes before the first phase of the first attempt. If the second phase succeeds in an attempt before
the interrupt, the heuristic has returned already. The attempts are numbered downwards from `r - 1`. -/
theorem C42_passed_on {N : ℕ} (hN : 2 ≤ N) {a : CmtArgs} (ht : TspRoutine a.D a.tsp) (hw : NoWorse a.D a.tsp)
    (hm : a.seed ≠ .other) {luck : ℕ → CmtLuck} (hl : ∀ j, (luck j).Ok N) (w : CmtWhen) (skip r : ℕ) (hr : skip < r)
    (o : Option (List ℕ)) (ho : ∀ s, o = some s → Solves N a.D a.d a.C a.L s) :
    ∃ (t : ℕ → CmtAttempt) (F : ℕ), (∀ fuel ≥ F, ∀ j < r, r ≤ j + skip → cmtAttempt a (luck j) fuel = .ok (some (t j))) ∧
      ((∃ j < r, r ≤ j + skip ∧ (t j).second.isSome = true ∧
          ∃ sol, ∀ fuel ≥ F, cmtRetryInterrupted a luck w fuel skip r (cmtRecord a.D o) = .ok (some (.returned (some sol)))) ∨
        (∀ j < r, r ≤ j + skip → (t j).second = none) ∧
        ∃ known, CmtKnown a (luck (r - 1 - skip)) w known ∧
          ((w = .before ∧ skip = 0 ∧ o = none ∧
            ∀ fuel ≥ F, cmtRetryInterrupted a luck w fuel skip r (cmtRecord a.D o) = .ok (some (.interrupted none))) ∨
          ∃ sol, Solves N a.D a.d a.C a.L sol ∧
            (sol ∈ known ∨ (∃ j < r, r ≤ j + skip ∧ sol = (t j).sol1) ∨ o = some sol) ∧
            (∀ s ∈ known, ¬ Better a.minimize_K (rank a.D s) (rank a.D sol)) ∧
            (∀ j < r, r ≤ j + skip → ¬ Better a.minimize_K (rank a.D (t j).sol1) (rank a.D sol)) ∧
            (∀ s, o = some s → ¬ Better a.minimize_K (rank a.D s) (rank a.D sol)) ∧
            ∀ fuel ≥ F, cmtRetryInterrupted a luck w fuel skip r (cmtRecord a.D o) = .ok (some (.interrupted (some sol))))) := by
  induction skip generalizing r o with
  | zero =>
    obtain ⟨r, rfl⟩ : ∃ q, r = q + 1 := ⟨r - 1, by omega⟩
    obtain ⟨known, F, g1, g2, g3⟩ := attempt_interrupted hN ht hw hm (hl r) w o
    refine ⟨fun _ => ⟨[], 0, 0, none⟩, F, fun fuel _ j h1 h2 => by omega, .inr ⟨fun _ _ _ => rfl, known, by simpa using g1, ?_⟩⟩
    rcases g3 with ⟨k1, k2, k3⟩ | ⟨sol, k1, k2⟩
    · exact .inl ⟨k1, rfl, k2, fun fuel hf => by rw [cmtRetryInterrupted, k3 fuel hf]⟩
    · refine .inr ⟨sol, ?_, ?_, fun s hs => k1.2 s (List.mem_append.2 (.inl hs)), fun j h1 h2 => by omega,
        fun s hs => k1.2 s (List.mem_append.2 (.inr (by simp [hs]))), fun fuel hf => by rw [cmtRetryInterrupted, k2 fuel hf]⟩
      · rcases List.mem_append.1 k1.1 with hh | hh
        · exact g2 sol hh
        · exact ho sol (by simpa using hh)
      · rcases List.mem_append.1 k1.1 with hh | hh
        · exact .inl hh
        · exact .inr (.inr (by simpa using hh))
  | succ skip ih =>
    obtain ⟨r, rfl⟩ : ∃ q, r = q + 1 := ⟨r - 1, by omega⟩
    obtain ⟨t0, a1, F0, a2⟩ := cmtAttempt_spec hN ht hw hm (hl r)
    obtain ⟨s1, p1, p2, p3, p4⟩ := cmtPick_spec a.minimize_K a1 (b := cmtRecord a.D o) (o := o) (by cases o <;> rfl)
    have p1' : cmtPick a.minimize_K t0 (cmtRecord a.D o) = cmtRecord a.D (some s1) := p1
    by_cases hsec : t0.second.isSome = true
    · choose t h1 F h2 using fun j => cmtAttempt_spec hN ht hw hm (hl j)
      obtain ⟨M, hM⟩ : ∃ M, ∀ j < r, F j ≤ M := ⟨(List.range r).foldr (fun j m => max (F j) m) 0, by
        intro j hj
        have key : ∀ l : List ℕ, j ∈ l → F j ≤ l.foldr (fun j m => max (F j) m) 0 := by
          intro l
          induction l with
          | nil => simp
          | cons x l ihl =>
            intro hx
            rcases List.mem_cons.1 hx with rfl | hx
            · exact le_max_left _ _
            · exact (ihl hx).trans (le_max_right _ _)
        exact key _ (List.mem_range.2 hj)⟩
      refine ⟨fun j => if j = r then t0 else t j, max F0 M, fun fuel hf j hj hj' => ?_, .inl ⟨r, by omega, by omega, by simpa using hsec,
        s1, fun fuel hf => ?_⟩⟩
      · by_cases e : j = r
        · subst e; simp only [if_true]; exact a2 fuel (le_trans (le_max_left _ _) hf)
        · simp only [if_neg e]
          exact h2 j fuel ((hM j (by omega)).trans (le_trans (le_max_right _ _) hf))
      · rw [cmtRetryInterrupted, a2 fuel (le_trans (le_max_left _ _) hf)]
        simp only
        rw [if_pos hsec, p1']
        rfl
    · have hnone : t0.second = none := by
        cases hh : t0.second with
        | none => rfl
        | some x => rw [hh] at hsec; simp at hsec
      have hhas : ∀ s', t0.Has s' → s' = t0.sol1 := by
        rintro s' (rfl | ⟨f, e⟩)
        · rfl
        · rw [hnone] at e; cases e
      have hs1 : Solves N a.D a.d a.C a.L s1 := by
        rcases p2 with p2 | p2
        · exact attempt_solves a1 p2
        · exact ho s1 p2
      obtain ⟨t, F, i1, i2⟩ := ih r (by omega) (some s1) (fun s hs => by injection hs with hs; rw [← hs]; exact hs1)
      have step : ∀ fuel ≥ max F0 F, cmtRetryInterrupted a luck w fuel (skip + 1) (r + 1) (cmtRecord a.D o) =
          cmtRetryInterrupted a luck w fuel skip r (cmtRecord a.D (some s1)) := by
        intro fuel hf
        rw [cmtRetryInterrupted, a2 fuel (le_trans (le_max_left _ _) hf)]
        simp only
        rw [if_neg hsec, p1']
      obtain ⟨T, eq0, eqr⟩ : ∃ T : ℕ → CmtAttempt, T r = t0 ∧ ∀ j, j < r → T j = t j :=
        ⟨fun j => if j = r then t0 else t j, if_pos rfl, fun j hj => if_neg (by omega)⟩
      refine ⟨T, max F0 F, fun fuel hf j hj hj' => ?_, ?_⟩
      · by_cases e : j = r
        · subst e; rw [eq0]; exact a2 fuel (le_trans (le_max_left _ _) hf)
        · rw [eqr j (by omega)]
          exact i1 fuel (le_trans (le_max_right _ _) hf) j (by omega) (by omega)
      rcases i2 with ⟨j, j1, j2, j3, sol, j4⟩ | ⟨j1, known, j2, j3⟩
      · exact .inl ⟨j, by omega, by omega, by rw [eqr j j1]; exact j3, sol, fun fuel hf => by
          rw [step fuel hf, j4 fuel (le_trans (le_max_right _ _) hf)]⟩
      · refine .inr ⟨fun j hj hj' => ?_, known, ?_, ?_⟩
        · by_cases e : j = r
          · rw [e, eq0]; exact hnone
          · rw [eqr j (by omega)]; exact j1 j (by omega) (by omega)
        · rw [show r + 1 - 1 - (skip + 1) = r - 1 - skip by omega]; exact j2
        · rcases j3 with ⟨-, -, j3, -⟩ | ⟨sol, k1, k2, k3, k4, k5, k6⟩
          · cases j3
          refine .inr ⟨sol, k1, ?_, k3, fun j hj hj' => ?_, fun s hs => better_neg_trans _ (p4 s hs) (k5 s1 rfl), fun fuel hf => by
            rw [step fuel hf, k6 fuel (le_trans (le_max_right _ _) hf)]⟩
          · rcases k2 with k2 | ⟨j, q1, q2, q3⟩ | k2
            · exact .inl k2
            · exact .inr (.inl ⟨j, by omega, by omega, by rw [eqr j q1]; exact q3⟩)
            · injection k2 with k2
              subst k2
              rcases p2 with p2 | p2
              · exact .inr (.inl ⟨r, by omega, by omega, by rw [eq0]; exact hhas _ p2⟩)
              · exact .inr (.inr p2)
          · by_cases e : j = r
            · rw [e, eq0]
              exact better_neg_trans _ (p3 _ (.inl rfl)) (k5 s1 rfl)
            · rw [eqr j (by omega)]; exact k4 j (by omega) (by omega)

/-- **C42 is false** of interrupts within a round of the first phase, for every instance and every round: the seed of the route in
progress was removed from the customers to serve and is not in the solution either, whatever customers have been added to the
route, so it is lost. -/
theorem C42_lost_false {N : ℕ} (D : ℕ → ℕ → ℚ) (d : ℕ → ℚ) (C L : Option ℚ) {tsp : CmtTsp}
    (ht : TspRoutine D tsp) (hw : NoWorse D tsp) (lam : ℚ) {m : CmtSeed} (hm : m ≠ .other) {order : List ℕ}
    (ho : order.Perm (List.range' 1 (N - 1))) {s : CmtOne}
    (hr : CmtOneReach D d C L tsp lam m ⟨order, [], [], 0⟩ s) (hu : s.unrouted ≠ [])
    {k : ℕ} (hk : cmtSeed D d m s.unrouted = .ok k) {un : List ℕ} (hun : ∀ x ∈ un, x ∈ s.unrouted.erase k) :
    1 ≤ k ∧ k < N ∧ k ∉ cmtOneInterrupted s.sol un ∧ ¬ Covers N (cmtOneInterrupted s.sol un) := by
  obtain ⟨k', hku, hk'⟩ := cmtSeed_spec D d hm hu
  rw [hk] at hk'
  injection hk' with hk'
  rw [← hk'] at hku
  have : ∃ us, CmtOneInv N D d C L (Serviceable N D d C L) us s := by
    clear hk hku hun hu hk'
    induction hr with
    | refl => exact ⟨[], cmtOneInit_inv D d C L _ ho⟩
    | tail _ hs ih =>
      obtain ⟨us, ih⟩ := ih
      obtain ⟨u, s', g1, g2, _⟩ := cmtOneStep_spec ht (fun h => h) (fun _ => hw) lam hm ih hs.1
      rw [g1] at hs
      have e := hs.2
      injection e with e
      exact ⟨_, e ▸ g2⟩
  obtain ⟨us, h⟩ := this
  have hnd : (us.flatten ++ s.unrouted).Nodup := h.perm.nodup_iff.2 List.nodup_range'
  obtain ⟨_, n2, n3⟩ := List.nodup_append.1 hnd
  have hrng : ∀ x ∈ s.unrouted, 1 ≤ x ∧ x < N := by
    intro x hx
    have := h.perm.mem_iff.1 (List.mem_append.2 (.inr hx))
    rw [List.mem_range'_1] at this
    omega
  have hk1 := hrng k hku
  have hsol : k ∉ s.sol := by
    rw [h.sol, List.mem_flatMap]
    rintro ⟨u, hu, hx⟩
    rcases List.mem_cons.1 hx with hx | hx
    · omega
    · exact n3 k (List.mem_flatten.2 ⟨u, hu, hx⟩) k hku rfl
  have hnot : k ∉ cmtOneInterrupted s.sol un := by
    unfold cmtOneInterrupted
    rw [singles_tour _ (fun x hx => by
      have := hrng x (List.mem_of_mem_erase (hun x (List.mem_of_mem_filter hx)))
      omega), List.mem_append, mem_tour, flatten_singles]
    rintro (hx | hx | hx)
    · exact hsol hx
    · omega
    · have := hun k (List.mem_of_mem_filter hx)
      exact (n2.mem_erase_iff.1 this).1 rfl
  refine ⟨hk1.1, hk1.2, hnot, fun hc => hnot ?_⟩
  have : k ∈ customers (cmtOneInterrupted s.sol un) := by
    rw [hc.mem_iff, List.mem_range'_1]
    omega
  exact List.mem_of_mem_filter this

/-! ## Instances -/

/-- Four customers on a line, two retries. -/
def cmtLineArgs : CmtArgs :=
  ⟨cmtLine, fun n => if n = 0 then 0 else 1, some 2, some 8, fun r => (r ++ [0], cost cmtLine (r ++ [0])),
    false, 2, 1, .farthest, true, .times 1⟩

/-- The customers and the routes in their order. -/
def cmtPlainLuck : CmtLuck := ⟨[1, 2, 3, 4], [1, 2, 3, 4], fun s => List.range s.routes.length, fun _ _ => []⟩

example : cmtRetryInterrupted cmtLineArgs (fun _ => cmtPlainLuck) .before 20 0 1 ⟨none, none, none⟩ =
    .ok (some (.interrupted none)) := by decide +kernel

example : cmtRetryInterrupted cmtLineArgs (fun _ => cmtPlainLuck) (.one 1) 20 0 1 ⟨none, none, none⟩ =
    .ok (some (.interrupted (some [0, 4, 3, 0, 1, 0, 2, 0]))) := by decide +kernel

example : cmtRetryInterrupted cmtLineArgs (fun _ => cmtPlainLuck) .between 20 0 1 ⟨none, none, none⟩ =
    .ok (some (.interrupted (some [0, 4, 3, 0, 2, 1, 0]))) := by decide +kernel

example : cmtRetryInterrupted cmtLineArgs (fun _ => cmtPlainLuck) (.two 0) 20 0 1 ⟨none, none, none⟩ =
    .ok (some (.interrupted (some [0, 4, 3, 0, 2, 1, 0]))) := by decide +kernel

theorem cmtPlainLuck_ok : cmtPlainLuck.Ok 5 := ⟨List.Perm.refl _, List.Perm.refl _, fun _ => List.Perm.refl _⟩

/-- The theorems apply there. -/
example : CmtOneReach cmtLine (fun _ => 1) none none (fun r => (r ++ [0], 0)) 2 .farthest ⟨[1, 2, 3], [], [], 0⟩ ⟨[1, 2, 3], [], [], 0⟩ ∧
    cmtSeed cmtLine (fun _ => 1) .farthest [1, 2, 3] = .ok 3 ∧ ∀ x ∈ [1], x ∈ [1, 2, 3].erase 3 := ⟨.refl, by decide +kernel, by decide⟩

end Verif
