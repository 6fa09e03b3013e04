import Verif.Lemmas.StarCase

/-!
# C22: the 3-opt* move

`do_3optstar_move` with its default checker. The statements use the specification of a reconnection in
`Verif.Spec.Star`.
-/

namespace Verif
open Spec

/-- A part as it is or reversed, for all the moves: the new solution of a move is a reconnection. -/
theorem s3Parts_reconnected {A B S E B1 B2 S1 S2 : List ℕ} {m : ℕ} (hm : m < 16)
    (h12 : m ∈ [7, 8, 9, 10, 15] → S3Split B B1 B2) (h34 : m ∈ [11, 12, 13, 14, 15] → S3Split S S1 S2) :
    Reconnected A B S E (s3Parts A B S E B1 B2 S1 S2 m).flatten := by
  have lt : m = 0 ∨ m = 1 ∨ m = 2 ∨ m = 3 ∨ m = 4 ∨ m = 5 ∨ m = 6 ∨ m = 7 ∨ m = 8 ∨ m = 9 ∨ m = 10 ∨ m = 11 ∨ m = 12 ∨
      m = 13 ∨ m = 14 ∨ m = 15 := by omega
  have k12 := fun h => eq_of_split (h12 h)
  have k34 := fun h => eq_of_split (h34 h)
  rcases lt with rfl | rfl | rfl | rfl | rfl | rfl | rfl | rfl | rfl | rfl | rfl | rfl | rfl | rfl | rfl | rfl
  · simpa [s3Parts] using Reconnected.turn2 (A := A) (B := B) (S := S) (E := E)
  · simpa [s3Parts] using Reconnected.swap (A := A) (E := E) B.reverse S.reverse (.inr rfl) (.inr rfl)
  · simpa [s3Parts] using Reconnected.turn1 (A := A) (B := B) (E := E) S (.inl rfl)
  · simpa [s3Parts] using Reconnected.turn1 (A := A) (B := B) (E := E) S.reverse (.inr rfl)
  · simpa [s3Parts] using Reconnected.swap (A := A) (E := E) B S (.inl rfl) (.inl rfl)
  · simpa [s3Parts] using Reconnected.swap (A := A) (E := E) B.reverse S (.inr rfl) (.inl rfl)
  · simpa [s3Parts] using Reconnected.swap (A := A) (E := E) B S.reverse (.inl rfl) (.inr rfl)
  · obtain ⟨B0, rfl, e⟩ := k12 (by decide)
    simpa [s3Parts] using Reconnected.loop1 (A := A) (E := E) B0 B2 S e (h12 (by decide)).2.1 (.inl rfl)
  · obtain ⟨B0, rfl, e⟩ := k12 (by decide)
    simpa [s3Parts] using Reconnected.loop1 (A := A) (E := E) B0 B2 S.reverse e (h12 (by decide)).2.1 (.inr rfl)
  · obtain ⟨B0, rfl, e⟩ := k12 (by decide)
    simpa [s3Parts] using Reconnected.join1 (A := A) (E := E) B0 B2 S e (h12 (by decide)).2.1 (.inl rfl)
  · obtain ⟨B0, rfl, e⟩ := k12 (by decide)
    simpa [s3Parts] using Reconnected.join1 (A := A) (E := E) B0 B2 S.reverse e (h12 (by decide)).2.1 (.inr rfl)
  · obtain ⟨S0, rfl, e⟩ := k34 (by decide)
    simpa [s3Parts] using Reconnected.loop2 (A := A) (E := E) S0 S2 B e (h34 (by decide)).2.1 (.inl rfl)
  · obtain ⟨S0, rfl, e⟩ := k34 (by decide)
    simpa [s3Parts] using Reconnected.loop2 (A := A) (E := E) S0 S2 B.reverse e (h34 (by decide)).2.1 (.inr rfl)
  · obtain ⟨S0, rfl, e⟩ := k34 (by decide)
    simpa [s3Parts] using Reconnected.join2 (A := A) (E := E) S0 S2 B e (h34 (by decide)).2.1 (.inl rfl)
  · obtain ⟨S0, rfl, e⟩ := k34 (by decide)
    simpa [s3Parts] using Reconnected.join2 (A := A) (E := E) S0 S2 B.reverse e (h34 (by decide)).2.1 (.inr rfl)
  · obtain ⟨B0, rfl, e⟩ := k12 (by decide)
    obtain ⟨S0, rfl, f⟩ := k34 (by decide)
    simpa [s3Parts] using Reconnected.loops (A := A) (E := E) B0 B2 S0 S2 e (h12 (by decide)).2.1 f (h34 (by decide)).2.1

/-- The other way around: every reconnection is the new solution of a move. -/
theorem reconnected_parts {A B S E new : List ℕ} (h : Reconnected A B S E new) : ∃ m B1 B2 S1 S2, m < 16 ∧
    (m ∈ [7, 8, 9, 10, 15] → S3Split B B1 B2) ∧ (m ∈ [11, 12, 13, 14, 15] → S3Split S S1 S2) ∧
    (s3Parts A B S E B1 B2 S1 S2 m).flatten = new := by
  cases h with
  | turn1 S' hS =>
    rcases hS with rfl | rfl
    · exact ⟨2, [], [], [], [], by decide, by simp, by simp, by simp [s3Parts]⟩
    · exact ⟨3, [], [], [], [], by decide, by simp, by simp, by simp [s3Parts]⟩
  | turn2 => exact ⟨0, [], [], [], [], by decide, by simp, by simp, by simp [s3Parts]⟩
  | swap B' S' hB hS =>
    rcases hB with rfl | rfl <;> rcases hS with rfl | rfl
    · exact ⟨4, [], [], [], [], by decide, by simp, by simp, by simp [s3Parts]⟩
    · exact ⟨6, [], [], [], [], by decide, by simp, by simp, by simp [s3Parts]⟩
    · exact ⟨5, [], [], [], [], by decide, by simp, by simp, by simp [s3Parts]⟩
    · exact ⟨1, [], [], [], [], by decide, by simp, by simp, by simp [s3Parts]⟩
  | loop1 B1 B2 S' e h2 hS =>
    rcases hS with rfl | rfl
    · exact ⟨7, B1 ++ [0], B2, [], [], by decide, fun _ => split_of_eq e h2, by simp, by simp [s3Parts]⟩
    · exact ⟨8, B1 ++ [0], B2, [], [], by decide, fun _ => split_of_eq e h2, by simp, by simp [s3Parts]⟩
  | join1 B1 B2 S' e h2 hS =>
    rcases hS with rfl | rfl
    · exact ⟨9, B1 ++ [0], B2, [], [], by decide, fun _ => split_of_eq e h2, by simp, by simp [s3Parts]⟩
    · exact ⟨10, B1 ++ [0], B2, [], [], by decide, fun _ => split_of_eq e h2, by simp, by simp [s3Parts]⟩
  | loop2 S1 S2 B' e h2 hS =>
    rcases hS with rfl | rfl
    · exact ⟨11, [], [], S1 ++ [0], S2, by decide, by simp, fun _ => split_of_eq e h2, by simp [s3Parts]⟩
    · exact ⟨12, [], [], S1 ++ [0], S2, by decide, by simp, fun _ => split_of_eq e h2, by simp [s3Parts]⟩
  | join2 S1 S2 B' e h2 hS =>
    rcases hS with rfl | rfl
    · exact ⟨13, [], [], S1 ++ [0], S2, by decide, by simp, fun _ => split_of_eq e h2, by simp [s3Parts]⟩
    · exact ⟨14, [], [], S1 ++ [0], S2, by decide, by simp, fun _ => split_of_eq e h2, by simp [s3Parts]⟩
  | loops B1 B2 S1 S2 e h2 f g2 =>
    exact ⟨15, B1 ++ [0], B2, S1 ++ [0], S2, by decide, fun _ => split_of_eq e h2, fun _ => split_of_eq f g2,
      by simp [s3Parts]⟩

/-- The change and the verdict of the checker for a candidate. -/
theorem check_regular {D : ℕ → ℕ → ℚ} (hs : Symm D) {d : ℕ → ℚ} {C L : Option ℚ} {sol : List ℕ} {c : S3Cand}
    {A B S E B1 B2 S1 S2 : List ℕ} (h : S3Case D d C L sol c A B S E B1 B2 S1 S2) :
    ∃ f : Bool, (∀ bd, check_3opt_move D C L bd c.mv.edges c.t =
        .ok (if f = true ∧ s3Delta D c.t c.mv.edges + S_EPS < bd then some (s3Delta D c.t c.mv.edges) else none)) ∧
      (f = true ↔ ∀ x ∈ s3Walk A B S E c.mv.idx, ChkOk D d C L x.1 x.2) := by
  obtain ⟨i, j, k, hp⟩ := h.pos
  obtain ⟨f, g1, g2⟩ := s3Feasible_move hs h.tab hp h.mem (fun hh => (h.h12 hh).mem') (fun hh => (h.h34 hh).mem')
  refine ⟨f, fun bd => ?_, g2⟩
  unfold check_3opt_move
  rw [g1]
  by_cases hb : s3Delta D c.t c.mv.edges + S_EPS < bd
  · rw [if_pos hb]
    cases f <;> simp [hb]
  · rw [if_neg hb, if_neg fun hh => hb hh.2]

/-- The loops over the candidates. -/
theorem do_3optstar_flat (check : S3Checker) (sol : List ℕ) (D : ℕ → ℕ → ℚ) (d : ℕ → ℚ) (C L : Option ℚ) (first : Bool)
    (best_delta : Option ℚ) : do_3optstar_move check sol D d C L first best_delta =
      match s3Flat check first (s3Cands D d C L sol) ⟨none, best_delta.getD 0⟩ with
      | .error x => .error x
      | .ok (b, _) => s3Result sol b := by
  unfold do_3optstar_move s3Cands
  simp only [s3LoopI_flat]
  rfl

/-- What a move found by any checker that decides by the change is. -/
theorem do_3optstar_regular {check : S3Checker} {D : ℕ → ℕ → ℚ} {d : ℕ → ℚ} {C L : Option ℚ} {sol : List ℕ}
    (hd : DepotEnds sol) (hr : ∀ c ∈ s3Cands D d C L sol, S3Regular check c.mv.edges c.t) (first : Bool) (bd : Option ℚ) :
    ∃ r, do_3optstar_move check sol D d C L first bd = .ok r ∧
      ((r = none ∧ ∀ c ∈ s3Cands D d C L sol, check (bd.getD 0) c.mv.edges c.t = .ok none) ∨
      ∃ new δ, r = some (new, δ) ∧ (∃ c ∈ s3Cands D d C L sol, ∃ A B S E B1 B2 S1 S2,
          S3Case D d C L sol c A B S E B1 B2 S1 S2 ∧ check (bd.getD 0) c.mv.edges c.t = .ok (some δ) ∧
          squeeze new = squeeze (s3Parts A B S E B1 B2 S1 S2 c.mv.idx).flatten) ∧
        (first = false → ∀ c ∈ s3Cands D d C L sol, check δ c.mv.edges c.t = .ok none)) := by
  obtain ⟨b, f, g1, _, g3, g4, g5⟩ := s3Flat_spec first hr ⟨none, bd.getD 0⟩
  rw [do_3optstar_flat, g1]
  simp only at g3 ⊢
  rcases g3 with ⟨rfl, rfl⟩ | ⟨c, hc, δ, k1, rfl⟩
  · exact ⟨none, rfl, .inl ⟨rfl, g5 rfl⟩⟩
  · obtain ⟨A, B, S, E, B1, B2, S1, S2, hcase⟩ := s3Cands_case hd hc
    obtain ⟨new, n1, n2⟩ := hcase.conc
    refine ⟨some (new, δ), ?_, .inr ⟨new, δ, rfl, ⟨c, hc, A, B, S, E, B1, B2, S1, S2, hcase, k1, n2⟩, fun hf => g5 (g4 hf)⟩⟩
    unfold s3Result
    simp only [(s3Moves_idx hcase.mem).1, n1]

/-- **C22**. On a solution that starts and ends at the depot the 3-opt* move never raises. A solution it returns
starts and ends at the depot, visits the same customers, costs exactly the reported change more, improves by more
than the tolerance on the change that was asked for, and is within the limits if the given solution is. -/
theorem C22 {D : ℕ → ℕ → ℚ} (hs : Symm D) (h0 : D 0 0 = 0) (d : ℕ → ℚ) (C L : Option ℚ) {sol : List ℕ}
    (hd : DepotEnds sol) (first : Bool) (best_delta : Option ℚ) :
    ∃ r, do_3optstar_move (check_3opt_move D C L) sol D d C L first best_delta = .ok r ∧
      ∀ new δ, r = some (new, δ) →
        DepotEnds new ∧ (customers new).Perm (customers sol) ∧ cost D new = cost D sol + δ ∧
        δ + S_EPS < best_delta.getD 0 ∧ (Feasible D d C L sol → Feasible D d C L new) := by
  obtain ⟨r, g1, g2⟩ := do_3optstar_regular (check := check_3opt_move D C L) (D := D) (d := d) (C := C) (L := L) hd
    (fun c hc => by
      obtain ⟨A, B, S, E, B1, B2, S1, S2, hcase⟩ := s3Cands_case hd hc
      obtain ⟨f, hf, _⟩ := check_regular hs hcase
      exact ⟨_, f, hf⟩) first best_delta
  refine ⟨r, g1, fun new δ hr => ?_⟩
  rcases g2 with ⟨rfl, _⟩ | ⟨new', δ', rfl, ⟨c, hc, A, B, S, E, B1, B2, S1, S2, hcase, k1, k2⟩, _⟩
  · exact nomatch hr
  simp only [Option.some.injEq, Prod.mk.injEq] at hr
  obtain ⟨rfl, rfl⟩ := hr
  obtain ⟨f, hf, hchk⟩ := check_regular hs hcase
  rw [hf] at k1
  have hb := (s3Moves_idx hcase.mem).2
  split at k1
  · rename_i hcond
    simp only [Except.ok.injEq, Option.some.injEq] at k1
    subst k1
    have e := hcase.sol_eq
    refine ⟨depotEnds_squeeze k2 (s3Parts_ends hcase.tab.hA hcase.tab.hE hb hcase.h12 hcase.h34), ?_, ?_, hcond.2, fun hfe => ?_⟩
    · rw [← customers_squeeze new', k2, customers_squeeze, e]
      exact (s3Parts_perm hb hcase.h12 hcase.h34).filter _
    · rw [← cost_squeeze h0 new', k2, cost_squeeze h0, s3Parts_cost hs hcase.tab hcase.mem hcase.h12 hcase.h34, e]
    · rw [e] at hfe
      have iA : Inner D d C L A := inner_of_feas (X := []) hfe
      have iB : Inner D d C L B := inner_of_feas (X := A) hfe
      have iS : Inner D d C L S := inner_of_feas (X := A ++ B) (Y := E) (by simpa using hfe)
      have iE : Inner D d C L E := inner_of_feas (X := A ++ (B ++ S)) (Y := []) (by simpa using hfe)
      exact feas_squeeze k2 (s3Parts_feas hs hcase.tab.hA hcase.tab.hE iA iB iS iE hb hcase.h12 hcase.h34 (hchk.1 hcond.1))
  · exact nomatch k1

/-- **C22**, which solutions. What is returned is, up to repeated depots, a reconnection of the given solution cut
at three of its edges. -/
theorem C22_move {D : ℕ → ℕ → ℚ} (hs : Symm D) (d : ℕ → ℚ) (C L : Option ℚ) {sol : List ℕ}
    (hd : DepotEnds sol) (first : Bool) (best_delta : Option ℚ) {new : List ℕ} {δ : ℚ}
    (h : do_3optstar_move (check_3opt_move D C L) sol D d C L first best_delta = .ok (some (new, δ))) :
    ∃ A B S E new', sol = A ++ B ++ S ++ E ∧ A ≠ [] ∧ B ≠ [] ∧ S ≠ [] ∧ E ≠ [] ∧ Reconnected A B S E new' ∧
      squeeze new = squeeze new' := by
  obtain ⟨r, g1, g2⟩ := do_3optstar_regular (check := check_3opt_move D C L) (D := D) (d := d) (C := C) (L := L) hd
    (fun c hc => by
      obtain ⟨A, B, S, E, B1, B2, S1, S2, hcase⟩ := s3Cands_case hd hc
      obtain ⟨f, hf, _⟩ := check_regular hs hcase
      exact ⟨_, f, hf⟩) first best_delta
  rw [g1] at h
  rcases g2 with ⟨rfl, _⟩ | ⟨new', δ', rfl, ⟨c, hc, A, B, S, E, B1, B2, S1, S2, hcase, k1, k2⟩, _⟩
  · exact nomatch h
  simp only [Except.ok.injEq, Option.some.injEq, Prod.mk.injEq] at h
  obtain ⟨rfl, rfl⟩ := h
  exact ⟨A, B, S, E, _, by rw [hcase.sol_eq]; simp, hcase.neA, hcase.tab.hB, hcase.tab.hS, hcase.neE,
    s3Parts_reconnected (s3Moves_idx hcase.mem).2 hcase.h12 hcase.h34, k2⟩

/-- The check of a reconnection within the limits that is better than what is asked for is not `none`. -/
theorem check_none {D : ℕ → ℕ → ℚ} (hs : Symm D) {d : ℕ → ℚ} {C L : Option ℚ} (hn : NonNegative D d C L) {sol : List ℕ}
    (hd : DepotEnds sol) {bd : ℚ}
    (h : ∀ c ∈ s3Cands D d C L sol, check_3opt_move D C L bd c.mv.edges c.t = .ok none)
    {A B S E new : List ℕ} (hsol : sol = A ++ B ++ S ++ E) (hA : A ≠ []) (hB : B ≠ []) (hS : S ≠ []) (hE : E ≠ [])
    (hr : Reconnected A B S E new) (hf : Feasible D d C L new) : cost D sol + bd ≤ cost D new + S_EPS := by
  have e : sol = A ++ (B ++ (S ++ E)) := by rw [hsol]; simp
  obtain ⟨m, B1, B2, S1, S2, hm, h12, h34, rfl⟩ := reconnected_parts hr
  rw [e] at hd h
  obtain ⟨c, hc, rfl, hcase⟩ := s3Cands_exists (D := D) (d := d) (C := C) (L := L) hA hB hS hE hd hm h12 h34
  obtain ⟨f, hf', hchk⟩ := check_regular hs hcase
  have hcc := h c hc
  rw [hf'] at hcc
  have hft : f = true := hchk.2 (s3Parts_chk hn hs hcase.tab.hA hcase.tab.hE hm h12 h34 hf)
  split at hcc
  · exact nomatch hcc
  · rename_i hneg
    have : ¬ (s3Delta D c.t c.mv.edges + S_EPS < bd) := fun hh => hneg ⟨hft, hh⟩
    rw [s3Parts_cost hs hcase.tab hcase.mem hcase.h12 hcase.h34, e]
    linarith

/-- **C22**, completeness. If nothing is returned then no reconnection within the limits improves by more than the
tolerance on the change that was asked for. If the best move is asked for then no reconnection within the limits is
better than what is returned by more than the tolerance. -/
theorem C22_best {D : ℕ → ℕ → ℚ} (hs : Symm D) {d : ℕ → ℚ} {C L : Option ℚ} (hn : NonNegative D d C L) {sol : List ℕ}
    (hd : DepotEnds sol) (first : Bool) (best_delta : Option ℚ) {r : Option (List ℕ × ℚ)}
    (h : do_3optstar_move (check_3opt_move D C L) sol D d C L first best_delta = .ok r)
    {A B S E new' : List ℕ} (hsol : sol = A ++ B ++ S ++ E) (hA : A ≠ []) (hB : B ≠ []) (hS : S ≠ []) (hE : E ≠ [])
    (hr : Reconnected A B S E new') (hf : Feasible D d C L new') :
    (r = none → cost D sol + best_delta.getD 0 ≤ cost D new' + S_EPS) ∧
    (first = false → ∀ new δ, r = some (new, δ) → cost D new ≤ cost D new' + S_EPS) := by
  obtain ⟨r', g1, g2⟩ := do_3optstar_regular (check := check_3opt_move D C L) (D := D) (d := d) (C := C) (L := L) hd
    (fun c hc => by
      obtain ⟨A, B, S, E, B1, B2, S1, S2, hcase⟩ := s3Cands_case hd hc
      obtain ⟨f, hf, _⟩ := check_regular hs hcase
      exact ⟨_, f, hf⟩) first best_delta
  rw [h] at g1
  obtain rfl := Except.ok.inj g1
  constructor
  · intro hnone
    rcases g2 with ⟨_, g⟩ | ⟨_, _, rfl, _⟩
    · exact check_none hs hn hd g hsol hA hB hS hE hr hf
    · exact nomatch hnone
  · intro hfirst new δ hsome
    rcases g2 with ⟨rfl, _⟩ | ⟨new2, δ2, rfl, _, g⟩
    · exact nomatch hsome
    simp only [Option.some.injEq, Prod.mk.injEq] at hsome
    obtain ⟨rfl, rfl⟩ := hsome
    have := check_none hs hn hd (g hfirst) hsol hA hB hS hE hr hf
    obtain ⟨r, k1, k2⟩ := C22 hs hn.depot d C L hd first best_delta
    rw [h] at k1
    obtain rfl := Except.ok.inj k1
    rw [(k2 _ _ rfl).2.2.1]
    exact this

/-! ## The statements are about something -/

/-- Customers on a line, two on each side of the depot. -/
def starD : ℕ → ℕ → ℚ := fun i j =>
  let x : ℕ → ℚ := fun n => if n = 1 then 1 else if n = 2 then -1 else if n = 3 then 2 else if n = 4 then -2 else 0
  |x i - x j|

/-- A move that exchanges customers between two routes; no move helps the result. -/
example : do_3optstar_move (check_3opt_move starD (some 2) (some 5)) [0, 1, 2, 0, 3, 4, 0] starD (fun _ => 1) (some 2) (some 5)
    false none = .ok (some ([0, 1, 3, 0, 2, 4, 0], -4)) := by decide +kernel

example : do_3optstar_move (check_3opt_move starD (some 2) (some 5)) [0, 1, 3, 0, 2, 4, 0] starD (fun _ => 1) (some 2) (some 5)
    false none = .ok none := by decide +kernel

/-- The repeated depot stays. -/
example : do_3optstar_move (check_3opt_move starD (some 2) none) [0, 1, 2, 0, 0, 3, 4, 0] starD (fun _ => 1) (some 2) none
    false none = .ok (some ([0, 1, 3, 0, 0, 2, 4, 0], -4)) := by decide +kernel

/-- A reconnection within the limits, where the first part `[1, 2, 0, 3]` becomes the route `[3, 1, 2]`. -/
example : Reconnected [0] [1, 2, 0, 3] [4] [0] [0, 4, 0, 3, 1, 2, 0] :=
  .loop1 [1, 2] [3] [4] rfl (by decide) (.inl rfl)

example : Feasible starD (fun _ => 1) (some 3) (some 6) [0, 4, 0, 3, 1, 2, 0] := by
  intro b hb
  have : b = [4] ∨ b = [3, 1, 2] := by simpa [blocks] using hb
  rcases this with rfl | rfl <;> constructor <;> rintro c ⟨⟩ _ <;> decide +kernel

example : Symm starD ∧ starD 0 0 = 0 ∧ DepotEnds [0, 1, 2, 0, 3, 4, 0] :=
  ⟨fun i j => abs_sub_comm _ _, by decide +kernel, by decide⟩

example : NonNegative starD (fun _ => 1) (some 2) (some 5) :=
  ⟨fun i j => abs_nonneg _, by decide +kernel, fun _ => by norm_num, by rintro c ⟨⟩; norm_num, by rintro c ⟨⟩; norm_num⟩

end Verif
