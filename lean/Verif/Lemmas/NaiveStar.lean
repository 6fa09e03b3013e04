import Verif.Model.Naive
import Verif.Lemmas.Basic

/-! # The loops of the naive 2-opt* move -/

namespace Verif
open Spec

/-- A loop that ran to its end without a break has done each pass, from the state that the passes before have left. -/
theorem forBreak_each {α σ : Type} {f : α → σ → Py (σ × Bool)} (g : σ → α → σ)
    (hf : ∀ a s s' b, f a s = .ok (s', b) → s' = g s a ∧ b = false) {l : List α} {s : σ} {r : σ × Bool} (h : forBreak l s f = .ok r)
    {pre post : List α} {a : α} (hl : l = pre ++ a :: post) : ∃ x, f a (pre.foldl g s) = .ok x := by
  induction pre generalizing l s with
  | nil =>
    subst hl
    rw [List.nil_append, forBreak] at h
    cases hx : f a s with
    | error e => rw [hx] at h; cases h
    | ok x => exact ⟨x, hx⟩
  | cons b pre ih =>
    subst hl
    rw [List.cons_append, forBreak] at h
    cases hx : f b s with
    | error e => rw [hx] at h; cases h
    | ok x =>
      obtain ⟨s', b'⟩ := x
      obtain ⟨rfl, rfl⟩ := hf b s s' b' hx
      rw [hx] at h
      exact ih h rfl

/-- The depots in between after the position `c`. -/
def starMid (sol : List ℕ) (mid : Option (ℕ × ℕ)) (c : ℕ) : Option (ℕ × ℕ) :=
  if sol[c]? = some 0 then (match mid with
    | none => some (c, c)
    | some (l, _) => some (l, c)) else mid

theorem starMid_skip {sol : List ℕ} {mid : Option (ℕ × ℕ)} {cs : List ℕ} (h : ∀ c ∈ cs, sol[c]? ≠ some 0) :
    cs.foldl (starMid sol) mid = mid := by
  induction cs generalizing mid with
  | nil => rfl
  | cons c cs ih =>
    rw [List.foldl_cons, show starMid sol mid c = mid from if_neg (h c (by simp))]
    exact ih fun c hc => h c (by simp [hc])

theorem starMid_some {sol : List ℕ} {l x : ℕ} {cs : List ℕ} : ∃ y, cs.foldl (starMid sol) (some (l, x)) = some (l, y) := by
  induction cs generalizing x with
  | nil => exact ⟨x, rfl⟩
  | cons c cs ih =>
    rw [List.foldl_cons, starMid]
    split_ifs
    · exact ih
    · exact ih

/-- The positions of a part of a list. -/
theorem getElem_part {X Y Z : List ℕ} {c : ℕ} (h : c ∈ List.range' X.length Y.length) :
    ∃ y ∈ Y, (X ++ Y ++ Z)[c]? = some y := by
  rw [List.mem_range'_1] at h
  refine ⟨Y[c - X.length], by simp, ?_⟩
  rw [List.append_assoc, List.getElem?_append_right (by omega), List.getElem?_append_left (by omega)]
  simp

theorem getElem_at (X : List ℕ) (y : ℕ) (Z : List ℕ) : (X ++ y :: Z)[X.length]? = some y := by
  rw [List.getElem?_append_right le_rfl]; simp

/-- The depots in between: the first and the last one of the middle part. -/
theorem starMid_fold {P B M E F : List ℕ} (hB : 0 ∉ B) (hE : 0 ∉ E) (hM : ∃ M', M = 0 :: M') (hM' : ∃ M', M = M' ++ [0]) :
    (List.range' P.length (B.length + M.length + E.length)).foldl (starMid (P ++ B ++ M ++ E ++ F))
      (if (P ++ B ++ M ++ E ++ F)[P.length]? = some 0 then some (P.length, P.length) else none) =
    some (P.length + B.length, P.length + B.length + M.length - 1) := by
  set sol := P ++ B ++ M ++ E ++ F with hsol
  have hnB : ∀ c ∈ List.range' P.length B.length, sol[c]? ≠ some 0 := by
    intro c hc
    obtain ⟨y, hy, e⟩ := getElem_part (Z := M ++ E ++ F) hc
    rw [hsol, show P ++ B ++ M ++ E ++ F = P ++ B ++ (M ++ E ++ F) by simp, e]
    rintro h; exact hB (Option.some.inj h ▸ hy)
  have hnE : ∀ c ∈ List.range' (P ++ B ++ M).length E.length, sol[c]? ≠ some 0 := by
    intro c hc
    obtain ⟨y, hy, e⟩ := getElem_part (Z := F) hc
    rw [hsol, e]
    rintro h; exact hE (Option.some.inj h ▸ hy)
  obtain ⟨M1, e1⟩ := hM
  obtain ⟨M2, e2⟩ := hM'
  have hfirst : sol[P.length + B.length]? = some 0 := by
    have := getElem_at (P ++ B) 0 (M1 ++ E ++ F)
    rw [List.length_append] at this
    rw [hsol, e1, ← this]; simp
  have hlast : sol[P.length + B.length + M2.length]? = some 0 := by
    have := getElem_at (P ++ B ++ M2) 0 (E ++ F)
    rw [List.length_append, List.length_append] at this
    rw [hsol, e2, ← this]; simp
  have hm2 : M.length = M2.length + 1 := by rw [e2]; simp
  have hsplit : List.range' P.length (B.length + M.length + E.length) =
      List.range' P.length B.length ++ (List.range' (P.length + B.length) M.length ++ List.range' (P ++ B ++ M).length E.length) := by
    rw [List.length_append, List.length_append, ← List.range'_append_1, ← List.range'_append_1, add_assoc P.length, List.append_assoc]
  rw [hsplit, List.foldl_append, List.foldl_append, starMid_skip hnB, starMid_skip hnE]
  have hstart : ∃ y, (List.range' (P.length + B.length) M2.length).foldl (starMid sol)
      (if sol[P.length]? = some 0 then some (P.length, P.length) else none) = some (P.length + B.length, y) ∨
      M2 = [] ∧ (if sol[P.length]? = some 0 then some (P.length, P.length) else none) = (none : Option (ℕ × ℕ)) := by
    by_cases hb : B = []
    · subst hb
      rw [List.length_nil, Nat.add_zero] at hfirst ⊢
      rw [if_pos hfirst]
      obtain ⟨y, hy⟩ := starMid_some (sol := sol) (l := P.length) (x := P.length) (cs := List.range' P.length M2.length)
      exact ⟨y, .inl hy⟩
    · have h0 : sol[P.length]? ≠ some 0 := hnB _ (by
        have := List.length_pos_iff.2 hb
        rw [List.mem_range'_1]; omega)
      rw [if_neg h0]
      cases hm : M2 with
      | nil => exact ⟨0, .inr ⟨rfl, rfl⟩⟩
      | cons z M3 =>
        rw [List.length_cons, List.range'_succ, List.foldl_cons, starMid, if_pos hfirst]
        obtain ⟨y, hy⟩ := starMid_some (sol := sol) (l := P.length + B.length) (x := P.length + B.length)
          (cs := List.range' (P.length + B.length + 1) M3.length)
        exact ⟨y, .inl hy⟩
  obtain ⟨y, h | ⟨h, h'⟩⟩ := hstart
  · rw [hm2, List.range'_concat, List.foldl_append, h, Nat.one_mul, List.foldl_cons, List.foldl_nil, starMid, if_pos hlast]
    rfl
  · subst h
    rw [h', hm2, List.length_nil, Nat.zero_add, List.range'_one, List.foldl_cons, List.foldl_nil, starMid, if_pos hfirst]
    rfl

/-- A candidate of the move that is good enough. -/
def StarGood (D : ℕ → ℕ → ℚ) (bd : Option ℚ) (sol r : List ℕ) : Prop := objf r D - objf sol D + S_EPS < initDelta bd

/-- If the move ends without an error then no candidate is good enough. -/
theorem star_none {sol : List ℕ} {D : ℕ → ℕ → ℚ} {bd : Option ℚ} (h : do_naive_2optstar_move sol D bd = .ok none) {a c : ℕ}
    (ha : a < sol.length - 3) (h1 : a + 1 ≤ c) (hc : c < sol.length - 1) {alt : ℕ} (halt : alt = 1 ∨ alt = 2) :
    ∃ o, starAnsatz sol a c ((List.range' (a + 1) (c - a)).foldl (starMid sol)
      (if sol[a + 1]? = some 0 then some (a + 1, a + 1) else none)) alt = .ok o ∧ ∀ r, o = some r → ¬ StarGood D bd sol r := by
  unfold do_naive_2optstar_move at h
  split at h
  · cases h
  rename_i x hx
  obtain ⟨y, hy⟩ := forBreak_each (fun s _ => s) (by
    intro a s s' b e
    dsimp only at e
    split at e
    · cases e
    · injection e with e; injection e with e1 e2; exact ⟨rfl, e2.symm⟩) hx (pre := List.range a) (a := a)
    (post := List.range' (a + 1) (sol.length - 3 - (a + 1))) (by
      rw [pyRange, Nat.sub_zero, ← List.range_eq_range']
      have : sol.length - 3 = a + (sol.length - 3 - (a + 1) + 1) := by omega
      conv_lhs => rw [this]
      rw [List.range_eq_range', List.range_eq_range', ← List.range'_append_1, Nat.zero_add, List.range'_succ])
  dsimp only at hy
  split at hy
  · cases hy
  rename_i z hz
  obtain ⟨w, hw⟩ := forBreak_each (starMid sol) (by
    intro c s s' b e
    split at e
    · cases e
    · injection e with e; injection e with e1 e2; exact ⟨e1.symm, e2.symm⟩) hz (pre := List.range' (a + 1) (c - a - 1)) (a := c)
    (post := List.range' (c + 1) (sol.length - 1 - (c + 1))) (by
      rw [pyRange]
      have e1 : sol.length - 1 - (a + 1) = (c - a - 1) + (sol.length - 1 - (c + 1) + 1) := by omega
      have e2 : a + 1 + (c - a - 1) = c := by omega
      rw [e1, ← List.range'_append_1, e2, List.range'_succ])
  have e3 : (List.range' (a + 1) (c - a)) = List.range' (a + 1) (c - a - 1) ++ [c] := by
    have e1 : c - a = c - a - 1 + 1 := by omega
    have e2 : a + 1 + (c - a - 1) = c := by omega
    conv_lhs => rw [e1]
    rw [List.range'_concat, Nat.one_mul, e2]
  rw [e3, List.foldl_append, List.foldl_cons, List.foldl_nil]
  set mid := (List.range' (a + 1) (c - a - 1)).foldl (starMid sol) (if sol[a + 1]? = some 0 then some (a + 1, a + 1) else none)
  split at hw
  · cases hw
  rename_i v hv
  obtain ⟨u, hu⟩ := forBreak_each (fun s _ => s) (by
    intro alt s s' b e
    split at e
    · cases e
    · injection e with e; injection e with e1 e2; exact ⟨rfl, e2.symm⟩
    · split_ifs at e
      injection e with e; injection e with e1 e2; exact ⟨rfl, e2.symm⟩) hv (pre := if alt = 1 then [] else [1]) (a := alt)
    (post := if alt = 1 then [2] else []) (by rcases halt with rfl | rfl <;> rfl)
  change (match starAnsatz sol a c (starMid sol mid c) alt with
    | .error e => .error e
    | .ok none => .ok ((), false)
    | .ok (some ansatz) => if objf ansatz D - objf sol D + S_EPS < initDelta bd then .error .nameError else .ok ((), false) : Py (Unit × Bool)) = _ at hu
  cases ho : starAnsatz sol a c (starMid sol mid c) alt with
  | error e => rw [ho] at hu; cases hu
  | ok o =>
    refine ⟨o, rfl, ?_⟩
    rintro r rfl hg
    rw [StarGood] at hg
    rw [ho] at hu
    simp only at hu
    rw [if_pos hg] at hu
    cases hu

theorem routeEnd_at {F R : List ℕ} (hF : 0 ∉ F) (i : ℕ) : routeEnd (F ++ 0 :: R) i = .ok (i + F.length) := by
  induction F generalizing i with
  | nil => simp [routeEnd]
  | cons x F ih =>
    have hx : x ≠ 0 := fun e => hF (by simp [e])
    rw [List.cons_append, routeEnd, if_pos hx, ih (fun h => hF (by simp [h])), List.length_cons]
    congr 1; omega

end Verif
