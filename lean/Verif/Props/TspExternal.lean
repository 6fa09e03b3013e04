import Mathlib.Algebra.Order.Floor.Ring
import Mathlib.Data.Rat.Floor
import Mathlib.Tactic.FieldSimp
import Verif.Spec.TspExternal
import Verif.Spec.Construct
import Verif.Lemmas.Basic
import Verif.Lemmas.TspEdges
import Verif.Props.Cmt

/-! # C72: the routines that call other programs for the travelling salesman problem -/

namespace Verif
open Spec

/-! ## The file of LKH -/

theorem lkhLoop_append (idxs : List ℕ) (l₁ l₂ : List LkhLine) (s : LkhState) :
    lkhLoop idxs (l₁ ++ l₂) s = match lkhLoop idxs l₁ s with
      | .error e => .error e
      | .ok s => lkhLoop idxs l₂ s := by
  induction l₁ generalizing s with
  | nil => rfl
  | cons l ls ih =>
    rw [List.cons_append, lkhLoop, lkhLoop]
    cases lkhLine idxs s l with
    | error e => rfl
    | ok s => exact ih s

theorem lkhLoop_skip (idxs : List ℕ) {f : ℚ} : ∀ {ls : List LkhLine} (s : LkhState), s.skip = true → .tours ∉ ls →
    (∀ g, .length g ∈ ls → g = f) → ∃ g, lkhLoop idxs ls s = .ok { s with f := g } ∧
      (g = s.f ∨ g = f) ∧ ((∃ g, .length g ∈ ls) → g = f)
  | [], s, _, _, _ => ⟨s.f, rfl, .inl rfl, by simp⟩
  | l :: ls, s, hs, ht, hl => by
    have ht' : LkhLine.tours ∉ ls := fun h => ht (List.mem_cons_of_mem _ h)
    have hl' : ∀ g, LkhLine.length g ∈ ls → g = f := fun g hg => hl g (List.mem_cons_of_mem _ hg)
    rw [lkhLoop]
    cases l with
    | stop =>
      obtain ⟨g, h1, h2, h3⟩ := lkhLoop_skip idxs { s with skip := true } rfl ht' hl'
      refine ⟨g, ?_, h2, fun ⟨g', hg'⟩ => h3 ⟨g', by simpa using hg'⟩⟩
      rw [lkhLine]
      simp only
      rw [h1, hs]
    | length f' =>
      obtain ⟨g, h1, h2, h3⟩ := lkhLoop_skip idxs { s with f := f' } hs ht' hl'
      have hf' : f' = f := hl f' (by simp)
      refine ⟨g, ?_, .inr ?_, fun _ => ?_⟩
      · rw [lkhLine]
        simp only
        rw [h1]
      · rcases h2 with h2 | h2
        · exact h2.trans hf'
        · exact h2
      · rcases h2 with h2 | h2
        · exact h2.trans hf'
        · exact h2
    | tours => exact absurd (by simp) ht
    | node k =>
      obtain ⟨g, h1, h2, h3⟩ := lkhLoop_skip idxs s hs ht' hl'
      refine ⟨g, ?_, h2, fun ⟨g', hg'⟩ => h3 ⟨g', by simpa using hg'⟩⟩
      rw [lkhLine, if_pos hs]
      exact h1
    | other =>
      obtain ⟨g, h1, h2, h3⟩ := lkhLoop_skip idxs s hs ht' hl'
      refine ⟨g, ?_, h2, fun ⟨g', hg'⟩ => h3 ⟨g', by simpa using hg'⟩⟩
      rw [lkhLine, if_pos hs]
      exact h1

theorem lkhNode_ok {idxs : List ℕ} {k : ℕ} (h1 : 1 ≤ k) (h2 : k ≤ idxs.length) : lkhNode idxs k = .ok (idxs.getD (k - 1) 0) := by
  have hk : k - 1 < idxs.length := by omega
  rw [lkhNode, if_neg (by omega), List.getElem?_eq_getElem hk, List.getD_eq_getElem?_getD, List.getElem?_eq_getElem hk]
  rfl

/-- The nodes after the depot. -/
theorem lkhLoop_after {idxs ks : List ℕ} (s : LkhState) (hs : s.skip = false) (hf : s.found = true)
    (hk : ∀ k ∈ ks, 1 ≤ k ∧ k ≤ idxs.length) (h0 : ∀ k ∈ ks, idxs.getD (k - 1) 0 ≠ 0) :
    lkhLoop idxs (ks.map .node) s = .ok { s with sol := s.sol ++ ks.map fun k => idxs.getD (k - 1) 0 } := by
  induction ks generalizing s with
  | nil => simp [lkhLoop]
  | cons k ks ih =>
    rw [List.map_cons, lkhLoop, lkhLine, if_neg (by simp [hs]), lkhNode_ok (hk k (by simp)).1 (hk k (by simp)).2]
    simp only
    rw [if_neg (h0 k (by simp)), if_pos hf]
    dsimp only
    refine (ih { s with sol := s.sol ++ [idxs.getD (k - 1) 0] } hs hf (fun x hx => hk x (List.mem_cons_of_mem _ hx))
      (fun x hx => h0 x (List.mem_cons_of_mem _ hx))).trans ?_
    simp

/-- The nodes before the depot. -/
theorem lkhLoop_before {idxs ks : List ℕ} (s : LkhState) (hs : s.skip = false) (hf : s.found = false)
    (hk : ∀ k ∈ ks, 1 ≤ k ∧ k ≤ idxs.length) (h0 : ∀ k ∈ ks, idxs.getD (k - 1) 0 ≠ 0) :
    lkhLoop idxs (ks.map .node) s = .ok { s with tail := s.tail ++ ks.map fun k => idxs.getD (k - 1) 0 } := by
  induction ks generalizing s with
  | nil => simp [lkhLoop]
  | cons k ks ih =>
    rw [List.map_cons, lkhLoop, lkhLine, if_neg (by simp [hs]), lkhNode_ok (hk k (by simp)).1 (hk k (by simp)).2]
    simp only
    rw [if_neg (h0 k (by simp)), if_neg (by simp [hf])]
    dsimp only
    refine (ih { s with tail := s.tail ++ [idxs.getD (k - 1) 0] } hs hf (fun x hx => hk x (List.mem_cons_of_mem _ hx))
      (fun x hx => h0 x (List.mem_cons_of_mem _ hx))).trans ?_
    simp

theorem cost_rotated (D : ℕ → ℕ → ℚ) (b a : List ℕ) (x y : ℕ) :
    cost D (x :: a ++ (y :: b) ++ [x]) = cost D (y :: b ++ (x :: a) ++ [y]) := by
  have h1 : x :: a ++ (y :: b) ++ [x] = (x :: a) ++ y :: (b ++ [x]) := by simp
  have h2 : y :: b ++ (x :: a) ++ [y] = (y :: b) ++ x :: (a ++ [y]) := by simp
  rw [h1, h2, cost_append_cons, cost_append_cons D (y :: b), add_comm]
  simp only [List.cons_append]

/-- The node of a number in the file. -/
def fileNode (idxs : List ℕ) (k : ℕ) : ℕ := idxs.getD (k - 1) 0

theorem fileNode_inj {idxs : List ℕ} (hnd : idxs.Nodup) {i j : ℕ} (hi : 1 ≤ i ∧ i ≤ idxs.length) (hj : 1 ≤ j ∧ j ≤ idxs.length)
    (h : fileNode idxs i = fileNode idxs j) : i = j := by
  unfold fileNode at h
  have h1 : i - 1 < idxs.length := by omega
  have h2 : j - 1 < idxs.length := by omega
  rw [List.getD_eq_getElem?_getD, List.getD_eq_getElem?_getD, List.getElem?_eq_getElem h1, List.getElem?_eq_getElem h2] at h
  simp only [Option.getD_some] at h
  have := hnd.getElem_inj_iff.1 h
  omega

theorem lkhRead_spec {idxs : List ℕ} (hnd : idxs.Nodup) {M : ℕ → ℕ → ℚ} {lines : List LkhLine} (h : LkhAnswer idxs.length M lines) :
    ∃ p0 p, (p0 :: p).Perm (List.range' 1 idxs.length) ∧
      lkhRead idxs lines = .ok ((p0 :: p).map (fileNode idxs) ++ [fileNode idxs p0], cost M (p0 :: p ++ [p0])) ∧
      (0 ∈ idxs → fileNode idxs p0 = 0) := by
  obtain ⟨head, rest, a, ks, rfl, hp, ht1, ht2, ⟨g0, hg0⟩, hf⟩ := h.form
  have hk : ∀ k ∈ a :: ks, 1 ≤ k ∧ k ≤ idxs.length := fun k hk => by
    have := hp.mem_iff.1 hk
    rw [List.mem_range'_1] at this
    omega
  have hKnd : (a :: ks).Nodup := hp.nodup_iff.2 List.nodup_range'
  generalize hF : cost M (a :: ks ++ [a]) = F at hf
  obtain ⟨g1, u1, u2, u3⟩ := lkhLoop_skip idxs (f := F) ⟨true, false, [], [], 0⟩ rfl ht1
    fun g hg => hf g (List.mem_append.2 (.inl hg))
  -- the end of the file, for any state
  have hend : ∀ s : LkhState, s.f = g1 → ∃ s', lkhLoop idxs (.stop :: rest) s = .ok s' ∧ s'.found = s.found ∧ s'.sol = s.sol ∧
      s'.tail = s.tail ∧ s'.f = F := by
    intro s hs
    obtain ⟨g2, w1, w2, w3⟩ := lkhLoop_skip idxs (f := F) { s with skip := true } rfl ht2
      fun g hg => hf g (List.mem_append.2 (.inr hg))
    refine ⟨{ s with skip := true, f := g2 }, ?_, rfl, rfl, rfl, ?_⟩
    · rw [lkhLoop, lkhLine]; exact w1
    · show g2 = F
      rcases List.mem_append.1 hg0 with hh | hh
      · have e1 := u3 ⟨g0, hh⟩
        rcases w2 with w2 | w2
        · exact w2.trans (hs.trans e1)
        · exact w2
      · exact w3 ⟨g0, hh⟩
  have hloop : ∀ s1, lkhLoop idxs ((a :: ks).map .node) ⟨false, false, [], [], g1⟩ = .ok s1 → s1.f = g1 →
      ∃ s', lkhLoop idxs (head ++ .tours :: (a :: ks).map .node ++ .stop :: rest) ⟨true, false, [], [], 0⟩ = .ok s' ∧
        s'.found = s1.found ∧ s'.sol = s1.sol ∧ s'.tail = s1.tail ∧ s'.f = F := by
    intro s1 e1 e2
    obtain ⟨s', q1, q2⟩ := hend s1 e2
    refine ⟨s', ?_, q2⟩
    rw [lkhLoop_append, lkhLoop_append, u1]
    simp only
    rw [lkhLoop, lkhLine, if_pos rfl]
    simp only
    rw [e1]
    exact q1
  by_cases h0 : ∃ k ∈ a :: ks, fileNode idxs k = 0
  · obtain ⟨k0, hk0, hz⟩ := h0
    obtain ⟨B, A, hK⟩ := List.append_of_mem hk0
    have hKnd' := hKnd
    rw [hK] at hKnd'
    have hBA : ∀ k ∈ B ++ A, fileNode idxs k ≠ 0 := by
      intro k hkm e
      have hkK : k ∈ a :: ks := by
        rw [hK]
        rcases List.mem_append.1 hkm with h | h <;> simp [h]
      have := fileNode_inj hnd (hk k hkK) (hk k0 hk0) (e.trans hz.symm)
      subst this
      rw [List.nodup_append] at hKnd'
      rcases List.mem_append.1 hkm with h | h
      · exact hKnd'.2.2 k h k (by simp) rfl
      · exact (List.nodup_cons.1 hKnd'.2.1).1 h
    have hs1 : lkhLoop idxs ((a :: ks).map .node) ⟨false, false, [], [], g1⟩ =
        .ok ⟨false, true, 0 :: A.map (fileNode idxs), B.map (fileNode idxs) ++ [0], g1⟩ := by
      rw [hK, List.map_append, lkhLoop_append, lkhLoop_before _ rfl rfl (fun k h => hk k (by rw [hK]; simp [h]))
        (fun k h => hBA k (List.mem_append.2 (.inl h)))]
      simp only
      rw [List.map_cons, lkhLoop, lkhLine, if_neg (by simp), lkhNode_ok (hk k0 hk0).1 (hk k0 hk0).2]
      simp only
      rw [if_pos (show idxs.getD (k0 - 1) 0 = 0 from hz)]
      simp only
      rw [lkhLoop_after _ rfl rfl (fun k h => hk k (by rw [hK]; simp [h])) (fun k h => hBA k (List.mem_append.2 (.inr h)))]
      simp [fileNode]
    obtain ⟨s', q1, q2, q3, q4, q5⟩ := hloop _ hs1 rfl
    refine ⟨k0, A ++ B, ?_, ?_, fun _ => hz⟩
    · rw [hK] at hp
      exact (List.perm_append_comm (l₁ := k0 :: A) (l₂ := B)).trans hp
    · rw [lkhRead, q1]
      simp only
      rw [if_pos q2, q3, q4, q5, ← hF]
      congr 2
      · simp [hz]
      · cases B with
        | nil =>
          rw [List.nil_append] at hK
          injection hK with e1 e2
          subst e1; subst e2
          simp
        | cons b B =>
          rw [List.cons_append] at hK
          injection hK with e1 e2
          subst e1
          rw [e2]
          have := cost_rotated M B A k0 a
          simp only [List.cons_append, List.append_assoc] at this ⊢
          exact this.symm
  · push Not at h0
    have hs1 : lkhLoop idxs ((a :: ks).map .node) ⟨false, false, [], [], g1⟩ =
        .ok ⟨false, false, [], (a :: ks).map (fileNode idxs), g1⟩ := by
      rw [lkhLoop_before _ rfl rfl hk h0]
      simp [fileNode]
    obtain ⟨s', q1, q2, q3, q4, q5⟩ := hloop _ hs1 rfl
    refine ⟨a, ks, hp, ?_, fun hz => ?_⟩
    · rw [lkhRead, q1]
      simp only
      rw [if_neg (by rw [q2]; simp), q3, q4, q5, ← hF]
      simp
    · exfalso
      obtain ⟨i, hi, e⟩ := List.mem_iff_getElem.1 hz
      refine h0 (i + 1) (hp.mem_iff.2 (by rw [List.mem_range'_1]; omega)) ?_
      rw [fileNode, List.getD_eq_getElem?_getD, Nat.add_sub_cancel, List.getElem?_eq_getElem hi, e]
      rfl

theorem map_fileNode (idxs : List ℕ) : (List.range' 1 idxs.length).map (fileNode idxs) = idxs := by
  refine List.ext_getElem (by simp) fun i h1 h2 => ?_
  simp only [List.length_map, List.length_range'] at h1
  simp [fileNode, List.getElem_range', h1]

theorem fileDist_eq {float : Bool} {acc : ℚ} {D : ℕ → ℕ → ℚ} (hD : ∀ i j, D i j = D j i) (idxs : List ℕ) :
    fileDist float acc D idxs = fun i j => written float acc (D (fileNode idxs i) (fileNode idxs j)) := by
  funext i j
  unfold fileDist fileNode
  rcases le_total i j with h | h
  · rw [min_eq_left h, max_eq_right h]
  · rw [min_eq_right h, max_eq_left h, hD]

/-! ## LKH -/

/-- **C72**: for four nodes or more and symmetric distances, whatever right answer the program writes to its file, the routine ends with a
closed tour through all the nodes, from the depot if it is among them. The value returned is the cost of that tour by the distances that
were written to the file, which are cut off to the accuracy if the matrix is one of floats. -/
theorem C72_lkh {D : ℕ → ℕ → ℚ} (hD : ∀ i j, D i j = D j i) (float : Bool) (acc : ℚ) {idxs : List ℕ} (hnd : idxs.Nodup)
    (h4 : 4 ≤ idxs.length) {lines : List LkhLine} (h : LkhAnswer idxs.length (fileDist float acc D idxs) lines) :
    ∃ x u, (x :: u).Perm idxs ∧ (0 ∈ idxs → x = 0) ∧ solve_tsp_lkh lines float acc D idxs =
      .ok (x :: u ++ [x], cost (fun i j => written float acc (D i j)) (x :: u ++ [x]) / if float then acc else 1) := by
  obtain ⟨p0, p, h1, h2, h3⟩ := lkhRead_spec hnd h
  refine ⟨fileNode idxs p0, p.map (fileNode idxs), ?_, h3, ?_⟩
  · have := h1.map (fileNode idxs)
    rwa [map_fileNode] at this
  · rw [solve_tsp_lkh, if_neg (by omega), h2]
    simp only
    have : cost (fileDist float acc D idxs) (p0 :: p ++ [p0]) =
        cost (fun i j => written float acc (D i j)) (fileNode idxs p0 :: p.map (fileNode idxs) ++ [fileNode idxs p0]) := by
      rw [fileDist_eq hD, ← cost_map (fun i j => written float acc (D i j)) (fileNode idxs)]
      simp
    rw [this]
    cases float <;> simp

theorem sortedTour_spec {idxs : List ℕ} (hne : idxs ≠ []) :
    ∃ x u, (x :: u).Perm idxs ∧ (x :: u).Pairwise (· ≤ ·) ∧ sortedTour idxs = .ok (x :: u ++ [x]) := by
  have hp := pySort_perm (fun a b => decide (a ≤ b)) idxs
  have hs := pySort_pairwise (le := fun a b : ℕ => decide (a ≤ b)) (by intro a b c; simp; omega) (by intro a b; simp; omega) idxs
  unfold sortedTour
  cases e : pySort (fun a b => decide (a ≤ b)) idxs with
  | nil =>
    rw [e] at hp
    exact absurd hp.symm.eq_nil hne
  | cons x u =>
    rw [e] at hp hs
    exact ⟨x, u, hp, by simpa using hs, by simp⟩

/-- **C72**: for up to three nodes the program is not called. The tour visits the nodes in increasing order, and the value returned is its
cost with each distance cut off to an integer, also if the matrix is one of floats and whatever the accuracy. -/
theorem C72_small (lines : List LkhLine) (float : Bool) (acc : ℚ) (D : ℕ → ℕ → ℚ) {idxs : List ℕ} (hne : idxs ≠ [])
    (h3 : idxs.length ≤ 3) :
    ∃ x u, (x :: u).Perm idxs ∧ (x :: u).Pairwise (· ≤ ·) ∧ solve_tsp_lkh lines float acc D idxs =
      .ok (x :: u ++ [x], cost (fun i j => truncQ (D i j)) (x :: u ++ [x])) := by
  obtain ⟨x, u, h1, h2, h⟩ := sortedTour_spec hne
  refine ⟨x, u, h1, h2, ?_⟩
  rw [solve_tsp_lkh, if_pos h3, h]
  simp only
  rw [← objf_eq_cost, objf]

/-- What is asked of LKH: its answers are right for all problems that the routine may write. -/
def LkhRight (float : Bool) (acc : ℚ) (D : ℕ → ℕ → ℚ) (lkh : List ℕ → List LkhLine) : Prop :=
  ∀ idxs : List ℕ, idxs.Nodup → 4 ≤ idxs.length → LkhAnswer idxs.length (fileDist float acc D idxs) (lkh idxs)

/-- The routine as a function of the nodes; an error gives no tour. -/
def lkhRoutine (lkh : List ℕ → List LkhLine) (float : Bool) (acc : ℚ) (D : ℕ → ℕ → ℚ) (idxs : List ℕ) : List ℕ × ℚ :=
  match solve_tsp_lkh (lkh idxs) float acc D idxs with
  | .ok r => r
  | .error _ => ([], 0)

/-- For any nodes with the depot the tour starts there and visits each of the others once. -/
theorem lkh_tour {D : ℕ → ℕ → ℚ} (hD : ∀ i j, D i j = D j i) {float : Bool} {acc : ℚ} {lkh : List ℕ → List LkhLine}
    (h : LkhRight float acc D lkh) {t : List ℕ} (hnd : (0 :: t).Nodup) :
    ∃ u, u.Perm t ∧ ((0 :: t).length ≤ 3 ∧
        solve_tsp_lkh (lkh (0 :: t)) float acc D (0 :: t) = .ok (wrap u, cost (fun i j => truncQ (D i j)) (wrap u)) ∨
      4 ≤ (0 :: t).length ∧ solve_tsp_lkh (lkh (0 :: t)) float acc D (0 :: t) =
        .ok (wrap u, cost (fun i j => written float acc (D i j)) (wrap u) / if float then acc else 1)) := by
  by_cases h3 : (0 :: t).length ≤ 3
  · obtain ⟨x, u, h1, h2, e⟩ := C72_small (lkh (0 :: t)) float acc D (by simp) h3
    have hx : x = 0 := by
      have h0 : 0 ∈ x :: u := h1.mem_iff.2 (by simp)
      rcases List.mem_cons.1 h0 with e | e
      · exact e.symm
      · have := (List.pairwise_cons.1 h2).1 0 e
        omega
    subst hx
    exact ⟨u, (List.perm_cons 0).1 h1, .inl ⟨h3, by rw [e]; simp [wrap]⟩⟩
  · obtain ⟨x, u, h1, h2, e⟩ := C72_lkh hD float acc hnd (by omega) (h _ hnd (by omega))
    obtain rfl := h2 (by simp)
    exact ⟨u, (List.perm_cons 0).1 h1, .inr ⟨by omega, by rw [e]; simp [wrap]⟩⟩

theorem truncQ_int {x : ℚ} (h : ∃ z : ℤ, x = z) : truncQ x = x := by
  obtain ⟨z, rfl⟩ := h
  unfold truncQ
  simp

theorem cost_scaled (D : ℕ → ℕ → ℚ) (c : ℚ) : ∀ l : List ℕ, cost (fun i j => D i j * c) l = cost D l * c
  | [] => by simp [cost]
  | [_] => by simp [cost]
  | a :: b :: t => by rw [cost, cost, cost_scaled D c (b :: t)]; ring

/-- **C72**: for integer distances, symmetric, and any positive integer as the accuracy the routine is one as the heuristics need it (in
the theorems about them): the value returned is the true cost of the tour. -/
theorem C72_integers {D : ℕ → ℕ → ℚ} (hD : ∀ i j, D i j = D j i) (hz : ∀ i j, ∃ z : ℤ, D i j = z) (float : Bool) {acc : ℕ}
    (hacc : 0 < acc) {lkh : List ℕ → List LkhLine} (h : LkhRight float acc D lkh) :
    TspRoutine D (lkhRoutine lkh float acc D) := by
  intro t _ hnd
  have ha : (acc : ℚ) ≠ 0 := by positivity
  have h1 : (fun i j => truncQ (D i j)) = D := by funext i j; exact truncQ_int (hz i j)
  obtain ⟨u, hu, ⟨-, e⟩ | ⟨-, e⟩⟩ := lkh_tour hD h hnd
  · exact ⟨u, hu, by rw [lkhRoutine, e, h1]⟩
  · refine ⟨u, hu, ?_⟩
    rw [lkhRoutine, e]
    cases float with
    | false => simp [written]
    | true =>
      have h2 : (fun i j => written true acc (D i j)) = fun i j => D i j * acc := by
        funext i j
        obtain ⟨z, e⟩ := hz i j
        rw [written, if_pos rfl]
        exact truncQ_int ⟨z * acc, by rw [e]; push_cast; rfl⟩
      rw [h2, cost_scaled]
      simp [ha]

theorem truncQ_bounds {x : ℚ} (h : 0 ≤ x) : truncQ x ≤ x ∧ x < truncQ x + 1 := by
  rw [truncQ, if_pos h]
  exact ⟨Int.floor_le x, Int.lt_floor_add_one x⟩

theorem cost_close {D E : ℕ → ℕ → ℚ} {c : ℚ} (h : ∀ i j, E i j ≤ D i j ∧ D i j < E i j + c) :
    ∀ (l : List ℕ) (a b : ℕ), cost E (a :: b :: l) ≤ cost D (a :: b :: l) ∧
      cost D (a :: b :: l) < cost E (a :: b :: l) + (l.length + 1 : ℕ) * c
  | [], a, b => by
    have := h a b
    simp only [cost, List.length_nil]
    constructor <;> norm_num <;> linarith
  | x :: l, a, b => by
    have h1 := cost_close h l b x
    have h2 := h a b
    rw [cost, show cost D (a :: b :: x :: l) = D a b + cost D (b :: x :: l) from rfl]
    simp only [List.length_cons]
    push_cast at h1 ⊢
    constructor <;> linarith

/-- **C72**: for distances that are not negative, of a matrix of floats, the value returned is never above the true cost of the tour, and
below it by less than one unit of the accuracy for each step; for three nodes or fewer the unit is one. -/
theorem C72_error {D : ℕ → ℕ → ℚ} (hD : ∀ i j, D i j = D j i) (hp : ∀ i j, 0 ≤ D i j) {acc : ℚ} (hacc : 0 < acc)
    {lkh : List ℕ → List LkhLine} (h : LkhRight true acc D lkh) {t : List ℕ} (hnd : (0 :: t).Nodup) :
    ∃ u f, u.Perm t ∧ solve_tsp_lkh (lkh (0 :: t)) true acc D (0 :: t) = .ok (wrap u, f) ∧ f ≤ cost D (wrap u) ∧
      cost D (wrap u) < f + (t.length + 1 : ℕ) * if t.length < 3 then 1 else 1 / acc := by
  obtain ⟨u, hu, ⟨h3, e⟩ | ⟨h3, e⟩⟩ := lkh_tour hD h hnd
  · refine ⟨u, _, hu, e, ?_⟩
    rw [if_pos (show t.length < 3 by simp at h3; omega), ← hu.length_eq]
    have hb : ∀ i j, truncQ (D i j) ≤ D i j ∧ D i j < truncQ (D i j) + 1 := fun i j => truncQ_bounds (hp i j)
    cases u with
    | nil => simpa [wrap] using cost_close hb [] 0 0
    | cons b u =>
      have := cost_close hb (u ++ [0]) 0 b
      rw [List.length_append] at this
      simpa [wrap] using this
  · refine ⟨u, _, hu, e, ?_⟩
    rw [if_neg (show ¬ t.length < 3 by simp at h3; omega), ← hu.length_eq, if_pos rfl]
    have hs : cost (fun i j => written true acc (D i j)) (wrap u) / acc = cost (fun i j => written true acc (D i j) * (1 / acc)) (wrap u) := by
      rw [cost_scaled]; ring
    rw [hs]
    have hb : ∀ i j, written true acc (D i j) * (1 / acc) ≤ D i j ∧ D i j < written true acc (D i j) * (1 / acc) + 1 / acc := by
      intro i j
      have := truncQ_bounds (x := D i j * acc) (mul_nonneg (hp i j) hacc.le)
      rw [written, if_pos rfl]
      constructor
      · rw [mul_one_div, div_le_iff₀ hacc]; exact this.1
      · rw [mul_one_div, ← add_div, lt_div_iff₀ hacc]; exact this.2
    cases u with
    | nil => simpa [wrap] using cost_close hb [] 0 0
    | cons b u =>
      have := cost_close hb (u ++ [0]) 0 b
      rw [List.length_append] at this
      simpa [wrap] using this

/-- All distances are 1.9. -/
def nearlyTwo (i j : ℕ) : ℚ := if i = j then 0 else 19 / 10

/-- **C72**: "the value returned is the cost of the tour" does not hold: for two customers, all distances 1.9, it is 3 and the cost 5.7,
whatever the program and the accuracy. -/
theorem C72_cost_false (lkh : List ℕ → List LkhLine) (float : Bool) (acc : ℚ) :
    solve_tsp_lkh (lkh [0, 1, 2]) float acc nearlyTwo [0, 1, 2] = .ok ([0, 1, 2, 0], 3) ∧
      cost nearlyTwo [0, 1, 2, 0] = 57 / 10 ∧ ¬ TspRoutine nearlyTwo (lkhRoutine lkh float acc nearlyTwo) := by
  have e : solve_tsp_lkh (lkh [0, 1, 2]) float acc nearlyTwo [0, 1, 2] = .ok ([0, 1, 2, 0], 3) := by
    have h1 : sortedTour [0, 1, 2] = .ok [0, 1, 2, 0] := by decide +kernel
    have h2 : (List.zipWith (fun p n => truncQ (nearlyTwo p n)) [0, 1, 2, 0] [0, 1, 2, 0].tail).sum = 3 := by decide +kernel
    rw [solve_tsp_lkh, if_pos (by simp), h1]
    simp only
    rw [h2]
  refine ⟨e, by decide +kernel, fun h => ?_⟩
  obtain ⟨u, h1, h2⟩ := h [1, 2] (by simp) (by simp)
  rw [lkhRoutine, e] at h2
  simp only [Prod.mk.injEq] at h2
  have h3 : cost nearlyTwo [0, 1, 2, 0] = 57 / 10 := by decide +kernel
  rw [← h2.1, h3] at h2
  norm_num at h2

/-- An answer of the program: the nodes as they are in the file. -/
def lkhInOrder (float : Bool) (acc : ℚ) (D : ℕ → ℕ → ℚ) (idxs : List ℕ) : List LkhLine :=
  [.other, .length (cost (fileDist float acc D idxs) (List.range' 1 idxs.length ++ [1])), .tours] ++
    (List.range' 1 idxs.length).map .node ++ [.stop, .stop]

theorem lkhInOrder_right (float : Bool) (acc : ℚ) (D : ℕ → ℕ → ℚ) : LkhRight float acc D (lkhInOrder float acc D) := by
  intro idxs _ h4
  obtain ⟨n, hn⟩ : ∃ n, idxs.length = n + 1 := ⟨idxs.length - 1, by omega⟩
  have e : List.range' 1 idxs.length = 1 :: List.range' 2 n := by rw [hn]; rfl
  refine ⟨[.other, .length (cost (fileDist float acc D idxs) (List.range' 1 idxs.length ++ [1]))], [.stop], 1, List.range' 2 n,
    ?_, ?_, by simp, by simp,
    ⟨cost (fileDist float acc D idxs) (List.range' 1 idxs.length ++ [1]), by simp⟩, ?_⟩
  · simp [lkhInOrder, e]
  · rw [e]
  · intro f hf
    simp at hf
    rw [hf, e]

/-- **C72**: "the heuristic of Christofides, Mingozzi and Toth keeps the limit of the cost" does not hold with this routine, which is its
default if the program is installed: the limit is 4, each customer alone costs 3.8, and the heuristic puts the two on a route that costs
5.7, with the accuracy of the package and a program that answers right. -/
theorem C72_limit_false :
    ∃ lkh, LkhRight true 1000 nearlyTwo lkh ∧ Serviceable 3 nearlyTwo (fun n => if n = 0 then 0 else 1) none (some 4) ∧
    cmt_2phase_init ⟨nearlyTwo, fun n => if n = 0 then 0 else 1, none, some 4, lkhRoutine lkh true 1000 nearlyTwo, false, 2, 1,
      .farthest, true, .times 1⟩ 3 none (fun _ => ⟨[], [], fun _ => [], fun _ _ => []⟩) 20 = .ok (some (some [0, 1, 2, 0])) ∧
    (4 : ℚ) < cost nearlyTwo [0, 1, 2, 0] := by
  refine ⟨lkhInOrder true 1000 nearlyTwo, lkhInOrder_right _ _ _, ?_, by decide +kernel, by decide +kernel⟩
  intro i h1 h2
  rw [RouteOk, ← exceeds_iff, ← exceeds_iff]
  interval_cases i <;> decide +kernel

/-- Five nodes; the tour in the file has the depot in the middle. -/
example : solve_tsp_lkh [.other, .length 9700, .tours, .node 4, .node 3, .node 1, .node 2, .stop, .stop] true 1000
    (fun i j => if i = j then 0 else i + j + 1 / 10) [0, 3, 1, 2] = .ok ([0, 3, 2, 1, 0], 97 / 10) := by
  decide +kernel

/-- The accuracy matters: 0.1236 is written as 123. -/
example : (let D : ℕ → ℕ → ℚ := fun i j => if i = j then 0 else 1236 / 10000
    solve_tsp_lkh (lkhInOrder true 1000 D [0, 1, 2, 3]) true 1000 D [0, 1, 2, 3]) = .ok ([0, 1, 2, 3, 0], 492 / 1000) := by
  decide +kernel

example : ∃ lkh, LkhRight true ((1000 : ℕ) : ℚ) (fun i j => if i = j then 0 else i + j) lkh := ⟨_, lkhInOrder_right _ _ _⟩

/-! ## ACOTSP -/

theorem aco_map {idxs t : List ℕ} (h : ∀ i ∈ t, i < idxs.length) :
    t.mapM (acoNode idxs) = .ok (t.map fun i => idxs.getD i 0) := by
  induction t with
  | nil => rfl
  | cons i t ih =>
    rw [List.mapM_cons, ih fun j hj => h j (List.mem_cons_of_mem _ hj), acoNode, List.getElem?_eq_getElem (h i (by simp))]
    simp [List.getD_eq_getElem?_getD, List.getElem?_eq_getElem (h i (by simp))]
    rfl

theorem map_getD_range (idxs : List ℕ) : (List.range idxs.length).map (fun i => idxs.getD i 0) = idxs := by
  refine List.ext_getElem (by simp) fun i h1 h2 => ?_
  simp [List.getD_eq_getElem?_getD, List.getElem?_eq_getElem h2]

theorem acoLine_spec (D : ℕ → ℕ → ℚ) {a : ℕ} {rest t : List ℕ} (ht : t.Perm (List.range (rest.length + 1))) :
    ∃ u, u.Perm rest ∧ (a :: u).IsRotated (t.map fun i => (a :: rest).getD i 0) ∧
      acoLine D (a :: rest) t = .ok (a :: u ++ [a], cost D (a :: u ++ [a])) := by
  have hp : (t.map fun i => (a :: rest).getD i 0).Perm (a :: rest) := by
    have := ht.map fun i => (a :: rest).getD i 0
    have e := map_getD_range (a :: rest)
    rw [List.length_cons] at e
    rwa [e] at this
  have hm := aco_map (idxs := a :: rest) (t := t) fun i hi => by simpa using ht.mem_iff.1 hi
  generalize (t.map fun i => (a :: rest).getD i 0) = w at hp hm
  have ha : a ∈ w := hp.mem_iff.2 (by simp)
  have hlt : w.idxOf a < w.length := List.idxOf_lt_length_of_mem ha
  have hd : w.drop (w.idxOf a) = a :: w.drop (w.idxOf a + 1) := by
    rw [List.drop_eq_getElem_cons hlt, List.getElem_idxOf hlt]
  have hr : (a :: (w.drop (w.idxOf a + 1) ++ w.take (w.idxOf a))).IsRotated w := by
    have h1 : (w.drop (w.idxOf a) ++ w.take (w.idxOf a)).IsRotated (w.take (w.idxOf a) ++ w.drop (w.idxOf a)) := List.isRotated_append
    rw [List.take_append_drop, hd] at h1
    exact h1
  refine ⟨w.drop (w.idxOf a + 1) ++ w.take (w.idxOf a), ?_, hr, ?_⟩
  · exact (List.perm_cons a).1 (hr.perm.trans hp)
  · rw [acoLine, hm]
    simp only
    rw [if_pos ha, hd, objf_eq_cost]
    simp

/-- **C72**: without ants and for four nodes or more, if each tour that the program prints visits each node once, what is returned is the
last of them, from the node that was given first, with its true cost. If none is printed there is no tour. -/
theorem C72_acotsp (D : ℕ → ℕ → ℚ) {a : ℕ} {rest : List ℕ} (h4 : 3 ≤ rest.length) {tours : List (List ℕ)}
    (h : ∀ t ∈ tours, t.Perm (List.range (rest.length + 1))) :
    (tours = [] → solve_tsp_acotsp tours false D (a :: rest) = .ok none) ∧
    ∀ ts t, tours = ts ++ [t] → ∃ u, u.Perm rest ∧ (a :: u).IsRotated (t.map fun i => (a :: rest).getD i 0) ∧
      solve_tsp_acotsp tours false D (a :: rest) = .ok (some (a :: u ++ [a], cost D (a :: u ++ [a]))) := by
  have h0 : ∀ l, solve_tsp_acotsp l false D (a :: rest) = acoRead D (a :: rest) l none := fun l => by
    rw [solve_tsp_acotsp, if_neg (by simp; omega), if_neg (by simp)]
  refine ⟨fun e => by rw [h0, e]; rfl, ?_⟩
  rintro ts t rfl
  obtain ⟨u, h1, h2, h3⟩ := acoLine_spec D (a := a) (h t (by simp))
  refine ⟨u, h1, h2, ?_⟩
  rw [h0]
  generalize (none : Option (List ℕ × ℚ)) = r
  induction ts generalizing r with
  | nil =>
    rw [List.nil_append, acoRead, h3]
    rfl
  | cons s ts ih =>
    obtain ⟨v, -, -, e⟩ := acoLine_spec D (a := a) (h s (by simp))
    rw [List.cons_append, acoRead, e]
    exact ih (fun t' ht' => h t' (by rw [List.cons_append]; exact List.mem_cons_of_mem _ ht')) (some (a :: v ++ [a], cost D (a :: v ++ [a])))

/-- **C72**: for up to three nodes the tour visits the nodes in increasing order, with its true cost, with ants or without. -/
theorem C72_acotsp_small (tours : List (List ℕ)) (ants : Bool) (D : ℕ → ℕ → ℚ) {idxs : List ℕ} (hne : idxs ≠ []) (h3 : idxs.length ≤ 3) :
    ∃ x u, (x :: u).Perm idxs ∧ (x :: u).Pairwise (· ≤ ·) ∧
      solve_tsp_acotsp tours ants D idxs = .ok (some (x :: u ++ [x], cost D (x :: u ++ [x]))) := by
  obtain ⟨x, u, h1, h2, h⟩ := sortedTour_spec hne
  refine ⟨x, u, h1, h2, ?_⟩
  rw [solve_tsp_acotsp, if_pos h3, h]
  simp only
  rw [objf_eq_cost]

/-- **C72**: "the colony of ants can be used" does not hold: for four nodes or more the routine ends with an error. -/
theorem C72_ants_false (tours : List (List ℕ)) (D : ℕ → ℕ → ℚ) {idxs : List ℕ} (h4 : 4 ≤ idxs.length) :
    solve_tsp_acotsp tours true D idxs = .error .nameError := by
  rw [solve_tsp_acotsp, if_neg (by omega), if_pos rfl]

/-! ## The choice by the number of nodes -/

/-- **C72**: if the three routines are as the heuristics need them, so is the one that chooses among them; it is asked for no more than
the sizes at which each is used. -/
theorem C72_fast {D : ℕ → ℕ → ℚ} {ropt gurobi lkh : List ℕ → List ℕ × ℚ}
    (h1 : ∀ t : List ℕ, t ≠ [] → (0 :: t).Nodup → t.length < 4 → ∃ u, u.Perm t ∧ ropt (0 :: t) = (wrap u, cost D (wrap u)))
    (h2 : ∀ t : List ℕ, (0 :: t).Nodup → 4 ≤ t.length → t.length < 19 → ∃ u, u.Perm t ∧ gurobi (0 :: t) = (wrap u, cost D (wrap u)))
    (h3 : ∀ t : List ℕ, (0 :: t).Nodup → 19 ≤ t.length → ∃ u, u.Perm t ∧ lkh (0 :: t) = (wrap u, cost D (wrap u))) :
    TspRoutine D (solve_tsp_fast ropt gurobi lkh) := by
  intro t ht hnd
  unfold solve_tsp_fast
  by_cases e1 : (0 :: t).length < 5
  · rw [if_pos e1]; exact h1 t ht hnd (by simp at e1; omega)
  · rw [if_neg e1]
    by_cases e2 : (0 :: t).length < 20
    · rw [if_pos e2]; exact h2 t hnd (by simp at e1; omega) (by simp at e2; omega)
    · rw [if_neg e2]; exact h3 t hnd (by simp at e2; omega)

/-- Two tours are printed; the last one counts. -/
example : solve_tsp_acotsp [[0, 1, 2, 3], [2, 3, 0, 1]] false (fun i j => if i = j then 0 else i + j) [5, 0, 1, 2] =
    .ok (some ([5, 0, 1, 2, 5], 16)) := by
  decide +kernel

/-- With the routine that keeps the order in the place of each. -/
example (D : ℕ → ℕ → ℚ) : TspRoutine D (solve_tsp_fast (fun r => (r ++ [0], cost D (r ++ [0]))) (fun r => (r ++ [0], cost D (r ++ [0])))
    (fun r => (r ++ [0], cost D (r ++ [0])))) :=
  C72_fast (fun t _ _ _ => ⟨t, List.Perm.refl _, rfl⟩) (fun t _ _ _ => ⟨t, List.Perm.refl _, rfl⟩) (fun t _ _ => ⟨t, List.Perm.refl _, rfl⟩)

end Verif
