import Verif.Model.Rfcs
import Mathlib.Order.Interval.Finset.Nat
import Mathlib.Data.Finset.Lattice.Fold
import Mathlib.Tactic.Linarith
import Mathlib.Tactic.Ring

/-! # Lemmas on the partition of a giant tour -/

namespace Verif

/-- What is needed of the cost `E i l` of the segment of length `l` after the position `i` on a ring of
`n` positions. -/
structure RingCost (n : ℕ) (E : ℕ → ℕ → WithTop ℚ) : Prop where
  pos : 0 < n
  nonneg : ∀ i l, 0 ≤ E i l
  mono : ∀ i l l', 1 ≤ l → l ≤ l' → E i l ≤ E i l'
  per : ∀ i l, E (i + n) l = E i l
  full : ∀ i l, n ≤ l → E i l = ⊤

/-- The least cost of a split of `m` positions after `i` to segments. -/
noncomputable def ringBest (E : ℕ → ℕ → WithTop ℚ) (i m : ℕ) : WithTop ℚ :=
  if m = 0 then 0
  else (Finset.range m).attach.inf fun l => E i (l.1 + 1) + ringBest E (i + l.1 + 1) (m - 1 - l.1)
  termination_by m
  decreasing_by omega

/-- The cost of a split to segments of the given lengths. -/
def ringCost (E : ℕ → ℕ → WithTop ℚ) : ℕ → List ℕ → WithTop ℚ
  | _, [] => 0
  | i, l :: t => E i l + ringCost E (i + l) t

variable {n : ℕ} {E : ℕ → ℕ → WithTop ℚ}

theorem ringBest_zero (i : ℕ) : ringBest E i 0 = 0 := by rw [ringBest]; simp

theorem ringBest_le {i m l : ℕ} (h1 : 1 ≤ l) (h2 : l ≤ m) :
    ringBest E i m ≤ E i l + ringBest E (i + l) (m - l) := by
  rw [ringBest, if_neg (by omega)]
  have hm : l - 1 ∈ Finset.range m := Finset.mem_range.2 (by omega)
  refine le_trans (Finset.inf_le (Finset.mem_attach _ ⟨l - 1, hm⟩)) ?_
  simp only
  have e1 : l - 1 + 1 = l := by omega
  have e2 : i + (l - 1) + 1 = i + l := by omega
  have e3 : m - 1 - (l - 1) = m - l := by omega
  rw [e1, e2, e3]

theorem ringBest_first (i : ℕ) {m : ℕ} (hm : 0 < m) :
    ∃ l, 1 ≤ l ∧ l ≤ m ∧ ringBest E i m = E i l + ringBest E (i + l) (m - l) := by
  have hne : (Finset.range m).attach.Nonempty := by
    rw [Finset.attach_nonempty_iff]; exact ⟨0, Finset.mem_range.2 hm⟩
  obtain ⟨l, _, hl⟩ := Finset.exists_mem_eq_inf _ hne
    (fun l : {x // x ∈ Finset.range m} => E i (l.1 + 1) + ringBest E (i + l.1 + 1) (m - 1 - l.1))
  have hlt := Finset.mem_range.1 l.2
  refine ⟨l.1 + 1, by omega, by omega, ?_⟩
  have h : ringBest E i m = (Finset.range m).attach.inf
      fun l => E i (l.1 + 1) + ringBest E (i + l.1 + 1) (m - 1 - l.1) := by
    rw [ringBest, if_neg (by omega)]
  rw [h, hl]
  have e : m - 1 - l.1 = m - (l.1 + 1) := by omega
  rw [e, Nat.add_assoc]

theorem ringBest_nonneg (h : RingCost n E) : ∀ (m i : ℕ), 0 ≤ ringBest E i m := by
  intro m
  induction m using Nat.strong_induction_on with
  | _ m ih =>
    intro i
    rcases Nat.eq_zero_or_pos m with rfl | hm
    · rw [ringBest_zero]
    · obtain ⟨l, h1, h2, e⟩ := ringBest_first (E := E) i hm
      rw [e]
      exact add_nonneg (h.nonneg _ _) (ih _ (by omega) _)

theorem ringBest_per (h : RingCost n E) : ∀ (m i : ℕ), ringBest E (i + n) m = ringBest E i m := by
  intro m
  induction m using Nat.strong_induction_on with
  | _ m ih =>
    intro i
    rcases Nat.eq_zero_or_pos m with rfl | hm
    · rw [ringBest_zero, ringBest_zero]
    · apply le_antisymm
      · obtain ⟨l, h1, h2, e⟩ := ringBest_first (E := E) i hm
        rw [e]
        refine le_trans (ringBest_le h1 h2) ?_
        rw [h.per, show i + n + l = i + l + n by omega, ih _ (by omega)]
      · obtain ⟨l, h1, h2, e⟩ := ringBest_first (E := E) (i + n) hm
        rw [e]
        refine le_trans (ringBest_le h1 h2) ?_
        rw [h.per, show i + n + l = i + l + n by omega, ih _ (by omega)]

theorem ringBest_single {i m : ℕ} (h1 : 1 ≤ m) : ringBest E i m ≤ E i m := by
  refine le_trans (ringBest_le h1 (le_refl m)) ?_
  rw [Nat.sub_self, ringBest_zero, add_zero]

theorem ringBest_append : ∀ (a b i : ℕ),
    ringBest E i (a + b) ≤ ringBest E i a + ringBest E (i + a) b := by
  intro a
  induction a using Nat.strong_induction_on with
  | _ a ih =>
    intro b i
    rcases Nat.eq_zero_or_pos a with rfl | ha
    · simp [ringBest_zero]
    · obtain ⟨l, h1, h2, e⟩ := ringBest_first (E := E) i ha
      rw [e, add_assoc]
      refine le_trans (ringBest_le h1 (by omega : l ≤ a + b)) ?_
      refine add_le_add le_rfl ?_
      have := ih (a - l) (by omega) b (i + l)
      rw [show a - l + b = a + b - l by omega, show i + l + (a - l) = i + a by omega] at this
      exact this

theorem ringBest_mono (h : RingCost n E) : ∀ (b a i : ℕ), a ≤ b → ringBest E i a ≤ ringBest E i b := by
  intro b
  induction b using Nat.strong_induction_on with
  | _ b ih =>
    intro a i hab
    rcases Nat.eq_zero_or_pos a with rfl | ha
    · rw [ringBest_zero]; exact ringBest_nonneg h _ _
    · obtain ⟨l, h1, h2, e⟩ := ringBest_first (E := E) i (by omega : 0 < b)
      rw [e]
      by_cases hla : l ≤ a
      · exact le_trans (ringBest_le h1 hla) (add_le_add le_rfl (ih (b - l) (by omega) _ _ (by omega)))
      · refine le_trans (ringBest_single ha) (le_trans (h.mono i a l ha (by omega)) ?_)
        exact le_add_of_nonneg_right (ringBest_nonneg h _ _)

theorem ringBest_last : ∀ (m i : ℕ), 0 < m →
    ∃ a, a < m ∧ ringBest E i a + E (i + a) (m - a) ≤ ringBest E i m := by
  intro m
  induction m using Nat.strong_induction_on with
  | _ m ih =>
    intro i hm
    obtain ⟨l, h1, h2, e⟩ := ringBest_first (E := E) i hm
    by_cases hl : l = m
    · subst hl
      refine ⟨0, hm, ?_⟩
      rw [e]
      simp [ringBest_zero]
    · obtain ⟨a, ha, ea⟩ := ih (m - l) (by omega) (i + l) (by omega)
      refine ⟨l + a, by omega, ?_⟩
      rw [e]
      refine le_trans ?_ (add_le_add le_rfl ea)
      have e1 : i + l + a = i + (l + a) := by omega
      have e2 : m - l - a = m - (l + a) := by omega
      rw [e1, e2, ← add_assoc (E i l)]
      refine add_le_add ?_ le_rfl
      have := ringBest_le (E := E) (i := i) h1 (by omega : l ≤ l + a)
      rwa [Nat.add_sub_cancel_left] at this

theorem ringBest_le_cost (h : RingCost n E) : ∀ (ls : List ℕ) (i : ℕ), (∀ l ∈ ls, 1 ≤ l) →
    ringBest E i ls.sum ≤ ringCost E i ls
  | [], i, _ => by simp [ringBest_zero, ringCost]
  | l :: t, i, hl => by
    have h1 := hl l List.mem_cons_self
    have := ringBest_le (E := E) (i := i) h1 (by simp : l ≤ (l :: t).sum)
    refine le_trans this ?_
    simp only [List.sum_cons, Nat.add_sub_cancel_left, ringCost]
    exact add_le_add le_rfl (ringBest_le_cost h t (i + l) fun x hx => hl x (List.mem_cons_of_mem _ hx))

/-! ## Tables -/

/-- The entry of a table for the positions `i` and `j`: the segment after `i` up to `j`. -/
noncomputable def ringTab (n : ℕ) (X : ℕ → ℕ → WithTop ℚ) (i j : ℕ) : WithTop ℚ :=
  if i < n ∧ j < n then (if i < j then X i (j - i) else X i (j + n - i)) else ⊤

theorem ringTab_fwd {X : ℕ → ℕ → WithTop ℚ} {i j : ℕ} (h : i < j) (hj : j < n) : ringTab n X i j = X i (j - i) := by
  unfold ringTab
  rw [if_pos ⟨by omega, hj⟩, if_pos h]

theorem ringTab_wrap {X : ℕ → ℕ → WithTop ℚ} {i j : ℕ} (h : j ≤ i) (hi : i < n) :
    ringTab n X i j = X i (j + n - i) := by
  unfold ringTab
  rw [if_pos ⟨hi, by omega⟩, if_neg (by omega)]

theorem ringTab_lt {X : ℕ → ℕ → WithTop ℚ} {i j : ℕ} (h : ringTab n X i j < ⊤) : i < n ∧ j < n := by
  unfold ringTab at h
  by_contra hc
  rw [if_neg hc] at h
  exact lt_irrefl _ h

theorem ringTab_nonneg {X : ℕ → ℕ → WithTop ℚ} (h : ∀ i l, 0 ≤ X i l) (i j : ℕ) : 0 ≤ ringTab n X i j := by
  unfold ringTab
  split
  · split <;> exact h _ _
  · exact le_top

theorem ringTab_best_le (i j : ℕ) : ringTab n (ringBest E) i j ≤ ringTab n E i j := by
  unfold ringTab
  split
  · rename_i hij
    split
    · exact ringBest_single (by omega)
    · exact ringBest_single (by omega)
  · exact le_rfl

/-- Going on to a further position does not cost less. -/
theorem ringBest_beyond (h : RingCost n E) {i j k : ℕ} (hi : i < n) (hj : j < n) (hk : k < n)
    (hb : (i < j ∧ j ≤ k) ∨ (i < j ∧ k ≤ i) ∨ (j ≤ i ∧ j ≤ k ∧ k ≤ i)) :
    ringTab n (ringBest E) i j ≤ ringTab n (ringBest E) i k := by
  rcases hb with ⟨h1, h2⟩ | ⟨h1, h2⟩ | ⟨h1, h2, h3⟩
  · rw [ringTab_fwd h1 hj, ringTab_fwd (by omega) hk]
    exact ringBest_mono h _ _ _ (by omega)
  · rw [ringTab_fwd h1 hj, ringTab_wrap h2 hi]
    exact ringBest_mono h _ _ _ (by omega)
  · rw [ringTab_wrap h1 hi, ringTab_wrap h3 hi]
    exact ringBest_mono h _ _ _ (by omega)

theorem ringE_beyond (h : RingCost n E) {i j k : ℕ} (hi : i < n) (hj : j < n) (hk : k < n)
    (hb : (i < j ∧ j ≤ k) ∨ (i < j ∧ k ≤ i) ∨ (j ≤ i ∧ j ≤ k ∧ k ≤ i)) :
    ringTab n E i j ≤ ringTab n E i k := by
  rcases hb with ⟨h1, h2⟩ | ⟨h1, h2⟩ | ⟨h1, h2, h3⟩
  · rw [ringTab_fwd h1 hj, ringTab_fwd (by omega) hk]
    exact h.mono _ _ _ (by omega) (by omega)
  · rw [ringTab_fwd h1 hj, ringTab_wrap h2 hi]
    exact h.mono _ _ _ (by omega) (by omega)
  · rw [ringTab_wrap h1 hi, ringTab_wrap h3 hi]
    exact h.mono _ _ _ (by omega) (by omega)

theorem ringBest_triangle (h : RingCost n E) (i j k : ℕ) :
    ringTab n (ringBest E) i j ≤ ringTab n (ringBest E) i k + ringTab n (ringBest E) k j := by
  have hnn : ∀ a b, 0 ≤ ringTab n (ringBest E) a b := ringTab_nonneg fun i l => ringBest_nonneg h l i
  by_cases hik : ringTab n (ringBest E) i k = ⊤
  · rw [hik, top_add]; exact le_top
  by_cases hkj : ringTab n (ringBest E) k j = ⊤
  · rw [hkj, add_top]; exact le_top
  obtain ⟨hi, hk⟩ := ringTab_lt (lt_top_iff_ne_top.2 hik)
  obtain ⟨_, hj⟩ := ringTab_lt (lt_top_iff_ne_top.2 hkj)
  by_cases hb : (i < j ∧ j ≤ k) ∨ (i < j ∧ k ≤ i) ∨ (j ≤ i ∧ j ≤ k ∧ k ≤ i)
  · exact le_trans (ringBest_beyond h hi hj hk hb) (le_add_of_nonneg_right (hnn _ _))
  · by_cases hij : i < j
    · have h1 : i < k ∧ k < j := by omega
      rw [ringTab_fwd hij hj, ringTab_fwd h1.1 hk, ringTab_fwd h1.2 hj]
      have := ringBest_append (E := E) (k - i) (j - k) i
      rwa [show k - i + (j - k) = j - i by omega, show i + (k - i) = k by omega] at this
    · rw [ringTab_wrap (by omega) hi]
      by_cases hki : i < k
      · rw [ringTab_fwd hki hk, ringTab_wrap (by omega) hk]
        have := ringBest_append (E := E) (k - i) (j + n - k) i
        rwa [show k - i + (j + n - k) = j + n - i by omega, show i + (k - i) = k by omega] at this
      · have hkj' : k < j := by omega
        rw [ringTab_wrap (by omega) hi, ringTab_fwd hkj' hj]
        have := ringBest_append (E := E) (k + n - i) (j - k) i
        rwa [show k + n - i + (j - k) = j + n - i by omega, show i + (k + n - i) = k + n by omega,
          ringBest_per h] at this

/-- The forward part, zero for nothing. -/
theorem ringBest_fwd_append {m k j : ℕ} (h1 : m ≤ k) (h2 : k < j) (hj : j < n) :
    ringBest E m (j - m) ≤ ringBest E m (k - m) + ringTab n (ringBest E) k j := by
  rw [ringTab_fwd h2 hj]
  have := ringBest_append (E := E) (k - m) (j - k) m
  rwa [show k - m + (j - k) = j - m by omega, show m + (k - m) = k by omega] at this

/-! ## The innermost loop -/

theorem fw_inner (i j : ℕ) : ∀ (ks : List ℕ) (t : RfTab), (∀ a b, 0 ≤ t.dist a b) →
    (∀ a b, ¬ (a = i ∧ b = j) → (ks.foldl (fwStep i j) t).dist a b = t.dist a b ∧
      (ks.foldl (fwStep i j) t).next a b = t.next a b) ∧
    (∀ a b, 0 ≤ (ks.foldl (fwStep i j) t).dist a b) ∧
    (ks.foldl (fwStep i j) t).dist i j ≤ t.dist i j ∧
    (∀ k ∈ ks, k ≠ i → k ≠ j → (ks.foldl (fwStep i j) t).dist i j ≤ t.dist i k + t.dist k j) ∧
    (((ks.foldl (fwStep i j) t).dist i j = t.dist i j ∧ (ks.foldl (fwStep i j) t).next i j = t.next i j) ∨
      ((ks.foldl (fwStep i j) t).dist i j < t.dist i j ∧ ∃ k ∈ ks, k ≠ i ∧ k ≠ j ∧
        (ks.foldl (fwStep i j) t).dist i j = t.dist i k + t.dist k j ∧
        (ks.foldl (fwStep i j) t).next i j = t.next i k))
  | [], t, h0 => ⟨fun _ _ _ => ⟨rfl, rfl⟩, h0, le_rfl, fun k hk => by simp at hk, .inl ⟨rfl, rfl⟩⟩
  | k :: ks, t, h0 => by
    simp only [List.foldl_cons]
    by_cases hlt : t.dist i k + t.dist k j < t.dist i j
    · have hki : k ≠ i := by
        rintro rfl
        exact absurd hlt (not_lt.2 (le_add_of_nonneg_left (h0 _ _)))
      have hkj : k ≠ j := by
        rintro rfl
        exact absurd hlt (not_lt.2 (le_add_of_nonneg_right (h0 _ _)))
      have hs : fwStep i j t k = t.put i j (t.dist i k + t.dist k j) (t.next i k) := by
        unfold fwStep; rw [if_pos hlt]
      have hij : (fwStep i j t k).dist i j = t.dist i k + t.dist k j := by rw [hs]; simp [RfTab.put]
      have hnx : (fwStep i j t k).next i j = t.next i k := by rw [hs]; simp [RfTab.put]
      have hoth : ∀ a b, ¬ (a = i ∧ b = j) → (fwStep i j t k).dist a b = t.dist a b ∧
          (fwStep i j t k).next a b = t.next a b := by
        intro a b hab
        rw [hs]
        simp only [RfTab.put]
        rw [if_neg hab, if_neg hab]
        exact ⟨rfl, rfl⟩
      have h0' : ∀ a b, 0 ≤ (fwStep i j t k).dist a b := by
        intro a b
        by_cases hab : a = i ∧ b = j
        · rw [hab.1, hab.2, hij]; exact add_nonneg (h0 _ _) (h0 _ _)
        · rw [(hoth a b hab).1]; exact h0 _ _
      obtain ⟨ha, hb, hc, hd, he⟩ := fw_inner i j ks (fwStep i j t k) h0'
      have hcand : ∀ m, m ≠ i → m ≠ j → (fwStep i j t k).dist i m + (fwStep i j t k).dist m j =
          t.dist i m + t.dist m j := by
        intro m h1 h2
        rw [(hoth i m (by omega)).1, (hoth m j (by omega)).1]
      refine ⟨?_, hb, ?_, ?_, ?_⟩
      · intro a b hab
        rw [(ha a b hab).1, (ha a b hab).2]
        exact hoth a b hab
      · exact le_trans hc (by rw [hij]; exact hlt.le)
      · intro m hm h1 h2
        rcases List.mem_cons.1 hm with rfl | hm
        · rw [← hij]; exact hc
        · rw [← hcand m h1 h2]; exact hd m hm h1 h2
      · right
        rcases he with ⟨e1, e2⟩ | ⟨e1, m, hm, h1, h2, e3, e4⟩
        · exact ⟨by rw [e1, hij]; exact hlt, k, List.mem_cons_self, hki, hkj, by rw [e1, hij], by rw [e2, hnx]⟩
        · refine ⟨lt_trans e1 (by rw [hij]; exact hlt), m, List.mem_cons_of_mem _ hm, h1, h2, ?_, ?_⟩
          · rw [e3, hcand m h1 h2]
          · rw [e4, (hoth i m (by omega)).2]
    · have hs : fwStep i j t k = t := by unfold fwStep; rw [if_neg hlt]
      rw [hs]
      obtain ⟨ha, hb, hc, hd, he⟩ := fw_inner i j ks t h0
      refine ⟨ha, hb, hc, ?_, ?_⟩
      · intro m hm h1 h2
        rcases List.mem_cons.1 hm with rfl | hm
        · exact le_trans hc (not_lt.1 hlt)
        · exact hd m hm h1 h2
      · rcases he with he | ⟨e1, m, hm, h⟩
        · exact .inl he
        · exact .inr ⟨e1, m, List.mem_cons_of_mem _ hm, h⟩

/-! ## What is known of a finished entry -/

/-- Where the next position recorded for `i` and `j` leads. -/
def RfPtr (n : ℕ) (E : ℕ → ℕ → WithTop ℚ) (i j p : ℕ) : Prop :=
  ((i < j → i < p) ∧ p ≤ j ∧ ringTab n E i p + ringBest E p (j - p) ≤ ringTab n (ringBest E) i j) ∨
  (j ≤ i ∧ i < p ∧ p < n ∧ ringTab n E i p + ringTab n (ringBest E) p j ≤ ringTab n (ringBest E) i j ∧
    ∃ m ≤ j, ringTab n E p m + ringBest E m (j - m) ≤ ringTab n (ringBest E) p j)

/-- An entry the loops have not reached. -/
def RfOrig (n : ℕ) (E : ℕ → ℕ → WithTop ℚ) (t : RfTab) (i j : ℕ) : Prop :=
  t.dist i j = ringTab n E i j ∧ (ringTab n E i j < ⊤ → t.next i j = j)

/-- An entry the loops have finished. -/
structure RfDone (n : ℕ) (E : ℕ → ℕ → WithTop ℚ) (t : RfTab) (i j : ℕ) : Prop where
  lb : ringTab n (ringBest E) i j ≤ t.dist i j
  ub : t.dist i j ≤ ringTab n E i j
  fwd : i < j → t.dist i j = ringTab n (ringBest E) i j
  wrp : j ≤ i → ∀ m < j, t.dist i j ≤ ringTab n E i m + ringTab n (ringBest E) m j
  ptr : t.dist i j = ringTab n (ringBest E) i j → t.dist i j < ⊤ → RfPtr n E i j (t.next i j)

theorem RfDone.congr {t t' : RfTab} {i j : ℕ} (h : RfDone n E t i j) (hd : t'.dist i j = t.dist i j)
    (hn : t'.next i j = t.next i j) : RfDone n E t' i j := by
  refine ⟨?_, ?_, ?_, ?_, ?_⟩
  · rw [hd]; exact h.lb
  · rw [hd]; exact h.ub
  · rw [hd]; exact h.fwd
  · rw [hd]; exact h.wrp
  · rw [hd, hn]; exact h.ptr

/-- Two lower bounds whose sum is attained are both attained. -/
theorem tight_split {a b a' b' : WithTop ℚ} (h1 : a ≤ a') (h2 : b ≤ b') (h3 : a' + b' ≤ a + b)
    (h4 : a' + b' < ⊤) : a' = a ∧ b' = b := by
  have ha' : a' ≠ ⊤ := by rintro rfl; simp at h4
  have hb' : b' ≠ ⊤ := by rintro rfl; simp at h4
  have ha : a ≠ ⊤ := by rintro rfl; exact ha' (top_le_iff.1 h1)
  have hb : b ≠ ⊤ := by rintro rfl; exact hb' (top_le_iff.1 h2)
  lift a to ℚ using ha
  lift b to ℚ using hb
  lift a' to ℚ using ha'
  lift b' to ℚ using hb'
  norm_cast at *
  constructor <;> linarith

theorem top_cancel {a b c : WithTop ℚ} (ha : a ≠ ⊤) (h : a + b ≤ a + c) : b ≤ c := by
  lift a to ℚ using ha
  by_cases hc : c = ⊤
  · rw [hc]; exact le_top
  lift c to ℚ using hc
  have hb : b ≠ ⊤ := by
    rintro rfl
    rw [add_top, top_le_iff] at h
    exact absurd h (by exact_mod_cast WithTop.coe_ne_top)
  lift b to ℚ using hb
  norm_cast at *
  linarith

theorem fw_cell (h : RingCost n E) {N i j : ℕ} (hN : n ≤ N) (t : RfTab) (h0 : ∀ a b, 0 ≤ t.dist a b)
    (hdone : ∀ a b, (a < i ∧ b < N ∨ a = i ∧ b < j) → RfDone n E t a b)
    (horig : ∀ a b, (i < a ∨ a = i ∧ j ≤ b) → RfOrig n E t a b) (hj : j < N) :
    RfDone n E ((List.range N).foldl (fwStep i j) t) i j := by
  obtain ⟨-, -, hc, hd, he⟩ := fw_inner i j (List.range N) t h0
  generalize (List.range N).foldl (fwStep i j) t = t' at hc hd he
  have hx0 := horig i j (.inr ⟨rfl, le_rfl⟩)
  have hnnP : ∀ a b, 0 ≤ ringTab n (ringBest E) a b := ringTab_nonneg fun i l => ringBest_nonneg h l i
  have hnnE : ∀ a b, 0 ≤ ringTab n E a b := ringTab_nonneg h.nonneg
  have hlb : ∀ a b, b < N → ringTab n (ringBest E) a b ≤ t.dist a b := by
    intro a b hb
    by_cases hab : i < a ∨ a = i ∧ j ≤ b
    · rw [(horig a b hab).1]; exact ringTab_best_le a b
    · exact (hdone a b (by omega)).lb
  have hLB : ringTab n (ringBest E) i j ≤ t'.dist i j := by
    rcases he with ⟨e1, _⟩ | ⟨_, k, hk, _, _, e3, _⟩
    · rw [e1]; exact hlb i j hj
    · rw [e3]
      exact le_trans (ringBest_triangle h i j k) (add_le_add (hlb i k (List.mem_range.1 hk)) (hlb k j hj))
  refine ⟨hLB, ?_, ?_, ?_, ?_⟩
  · rw [← hx0.1]; exact hc
  · intro hij
    apply le_antisymm _ hLB
    by_cases htop : ringTab n (ringBest E) i j = ⊤
    · rw [htop]; exact le_top
    obtain ⟨hin, hjn⟩ := ringTab_lt (lt_top_iff_ne_top.2 htop)
    rw [ringTab_fwd hij hjn]
    obtain ⟨a, ha, hla⟩ := ringBest_last (E := E) (j - i) i (by omega)
    refine le_trans ?_ hla
    by_cases ha0 : a = 0
    · subst ha0
      rw [ringBest_zero, zero_add]
      refine le_trans hc ?_
      rw [hx0.1, ringTab_fwd hij hjn]
      simp
    · have h1 := hd (i + a) (List.mem_range.2 (by omega)) (by omega) (by omega)
      rw [(hdone i (i + a) (.inr ⟨rfl, by omega⟩)).fwd (by omega), (horig (i + a) j (.inl (by omega))).1,
        ringTab_fwd (by omega) (by omega), ringTab_fwd (by omega) hjn] at h1
      rwa [show i + a - i = a by omega, show j - (i + a) = j - i - a by omega] at h1
  · intro hji m hm
    by_cases hmn : m < n
    · have h1 := hd m (List.mem_range.2 (by omega)) (by omega) (by omega)
      rw [(hdone m j (.inl ⟨by omega, hj⟩)).fwd hm] at h1
      exact le_trans h1 (add_le_add (hdone i m (.inr ⟨rfl, hm⟩)).ub le_rfl)
    · have : ringTab n E i m = ⊤ := by unfold ringTab; rw [if_neg (by omega)]
      rw [this, top_add]; exact le_top
  · intro heq hfin
    obtain ⟨hin, hjn⟩ := ringTab_lt (heq ▸ hfin)
    rcases he with ⟨e1, e2⟩ | ⟨e1, k, hk, hki, hkj, e3, e4⟩
    · have hE : ringTab n E i j < ⊤ := by rw [← hx0.1, ← e1]; exact hfin
      rw [e2, hx0.2 hE]
      refine .inl ⟨id, le_rfl, ?_⟩
      rw [Nat.sub_self, ringBest_zero, add_zero, ← heq, e1, hx0.1]
    · have hkN := List.mem_range.1 hk
      have htri := ringBest_triangle h i j k
      obtain ⟨hik, hkj'⟩ := tight_split (hlb i k hkN) (hlb k j hj) (by rw [← e3, heq]; exact htri) (by rw [← e3]; exact hfin)
      have hikf : t.dist i k < ⊤ := by
        refine lt_of_le_of_lt (le_add_of_nonneg_right (h0 k j)) ?_
        rw [← e3]; exact hfin
      have hkjf : t.dist k j < ⊤ := by
        refine lt_of_le_of_lt (le_add_of_nonneg_left (h0 i k)) ?_
        rw [← e3]; exact hfin
      have hkn : k < n := (ringTab_lt (hik ▸ hikf)).2
      have hPsum : ringTab n (ringBest E) i k + ringTab n (ringBest E) k j = ringTab n (ringBest E) i j := by
        rw [← hik, ← hkj', ← e3, heq]
      have hless : ∀ x, x ≤ t.dist i k → x < ringTab n E i j := by
        intro x hx
        refine lt_of_le_of_lt hx (lt_of_le_of_lt (le_add_of_nonneg_right (h0 k j)) ?_)
        rw [← e3, ← hx0.1]; exact e1
      rw [e4]
      by_cases hij : i < j
      · rcases lt_trichotomy k j with hkj1 | hkj1 | hkj1
        · have hD := hdone i k (.inr ⟨rfl, hkj1⟩)
          have hptr := hD.ptr hik hikf
          by_cases hik1 : i < k
          · rcases hptr with ⟨p1, p2, p3⟩ | ⟨p1, _⟩
            · refine .inl ⟨fun _ => p1 hik1, by omega, ?_⟩
              rw [← hPsum]
              refine le_trans (add_le_add le_rfl (ringBest_fwd_append p2 hkj1 hjn)) ?_
              rw [← add_assoc]
              exact add_le_add p3 le_rfl
            · omega
          · rcases hptr with ⟨p1, p2, p3⟩ | ⟨p1, p2, pn, p3, _⟩
            · exfalso
              have h1 := hless (ringTab n E i (t.next i k)) (by
                rw [hik]
                exact le_trans (le_add_of_nonneg_right (ringBest_nonneg h _ _)) p3)
              exact absurd h1 (not_lt.2 (ringE_beyond h hin hjn (by omega) (.inr (.inl ⟨hij, by omega⟩))))
            · have h1 := hless (ringTab n E i (t.next i k)) (by
                rw [hik]
                exact le_trans (le_add_of_nonneg_right (hnnP _ _)) p3)
              have hpj : t.next i k < j := by
                by_contra hcon
                exact absurd h1 (not_lt.2 (ringE_beyond h hin hjn pn (.inl ⟨hij, by omega⟩)))
              refine .inl ⟨fun _ => p2, hpj.le, ?_⟩
              rw [← ringTab_fwd (X := ringBest E) hpj hjn]
              refine le_trans (add_le_add le_rfl (ringBest_beyond h pn hjn hkn (.inr (.inl ⟨hpj, by omega⟩)))) ?_
              refine le_trans p3 ?_
              rw [← hPsum]
              exact le_add_of_nonneg_right (hnnP _ _)
        · exact absurd hkj1 hkj
        · exfalso
          have h1 := hless _ le_rfl
          rw [(horig i k (.inr ⟨rfl, hkj1.le⟩)).1] at h1
          exact absurd h1 (not_lt.2 (ringE_beyond h hin hjn hkn (.inl ⟨hij, hkj1.le⟩)))
      · by_cases hik1 : i < k
        · have ho := horig i k (.inr ⟨rfl, by omega⟩)
          have hEf : ringTab n E i k < ⊤ := by rw [← ho.1]; exact hikf
          rw [ho.2 hEf]
          refine .inr ⟨by omega, hik1, hkn, ?_, j, le_rfl, ?_⟩
          · rw [← hPsum, ← hik, ← ho.1]
          · rw [Nat.sub_self, ringBest_zero, add_zero, ← (horig k j (.inl hik1)).1, hkj']
        · by_cases hkj1 : k < j
          · have hD := hdone i k (.inr ⟨rfl, hkj1⟩)
            rcases hD.ptr hik hikf with ⟨p1, p2, p3⟩ | ⟨p1, p2, pn, p3, m, hm, p4⟩
            · refine .inl ⟨fun hh => absurd hh hij, by omega, ?_⟩
              rw [← hPsum]
              refine le_trans (add_le_add le_rfl (ringBest_fwd_append p2 hkj1 hjn)) ?_
              rw [← add_assoc]
              exact add_le_add p3 le_rfl
            · refine .inr ⟨by omega, p2, pn, ?_, m, by omega, ?_⟩
              · rw [← hPsum]
                refine le_trans (add_le_add le_rfl (ringBest_triangle h _ j k)) ?_
                rw [← add_assoc]
                exact add_le_add p3 le_rfl
              · refine le_trans (add_le_add le_rfl (ringBest_fwd_append hm hkj1 hjn)) ?_
                rw [← add_assoc]
                refine le_trans (add_le_add p4 le_rfl) ?_
                have hpf : ringTab n E i (t.next i k) ≠ ⊤ := by
                  intro hh
                  rw [hh, top_add, top_le_iff] at p3
                  rw [hik, p3] at hikf
                  exact lt_irrefl _ hikf
                refine top_cancel hpf ?_
                rw [← add_assoc]
                refine le_trans (add_le_add p3 le_rfl) ?_
                rw [hPsum]
                exact le_trans (ringBest_triangle h _ _ (t.next i k)) (add_le_add (ringTab_best_le _ _) le_rfl)
          · exfalso
            have h1 := hless _ le_rfl
            rw [(horig i k (.inr ⟨rfl, by omega⟩)).1] at h1
            exact absurd h1 (not_lt.2 (ringE_beyond h hin hjn hkn (.inr (.inr ⟨by omega, by omega, by omega⟩))))

/-- The entries before `i`, `j` are finished and the others are as they were. -/
structure RfInv (n N : ℕ) (E : ℕ → ℕ → WithTop ℚ) (i j : ℕ) (t : RfTab) : Prop where
  nonneg : ∀ a b, 0 ≤ t.dist a b
  done : ∀ a b, (a < i ∧ b < N ∨ a = i ∧ b < j) → RfDone n E t a b
  orig : ∀ a b, (i < a ∨ a = i ∧ j ≤ b) → RfOrig n E t a b

theorem RfInv.cell (h : RingCost n E) {N i j : ℕ} (hN : n ≤ N) (hj : j < N) {t : RfTab} (ht : RfInv n N E i j t) :
    RfInv n N E i (j + 1) ((List.range N).foldl (fwStep i j) t) := by
  obtain ⟨ha, hb, -, -, -⟩ := fw_inner i j (List.range N) t ht.nonneg
  have hcell := fw_cell h hN t ht.nonneg ht.done ht.orig hj
  refine ⟨hb, ?_, ?_⟩
  · intro a b hab
    by_cases hc : a = i ∧ b = j
    · rw [hc.1, hc.2]; exact hcell
    · exact (ht.done a b (by omega)).congr (ha a b hc).1 (ha a b hc).2
  · intro a b hab
    have hc : ¬ (a = i ∧ b = j) := by omega
    have := ht.orig a b (by omega)
    unfold RfOrig
    rw [(ha a b hc).1, (ha a b hc).2]
    exact this

theorem RfInv.row (h : RingCost n E) {N i : ℕ} (hN : n ≤ N) {t : RfTab} (ht : RfInv n N E i 0 t) :
    ∀ M, M ≤ N → RfInv n N E i M ((List.range M).foldl (fun t j => (List.range N).foldl (fwStep i j) t) t)
  | 0, _ => ht
  | M + 1, hM => by
    rw [List.range_succ, List.foldl_append, List.foldl_cons, List.foldl_nil]
    exact (RfInv.row h hN ht M (by omega)).cell h hN (by omega)

theorem RfInv.rows (h : RingCost n E) {N : ℕ} (hN : n ≤ N) {t : RfTab} (ht : RfInv n N E 0 0 t) :
    ∀ M, RfInv n N E M 0 ((List.range M).foldl
      (fun t i => (List.range N).foldl (fun t j => (List.range N).foldl (fwStep i j) t) t) t)
  | 0 => ht
  | M + 1 => by
    rw [List.range_succ, List.foldl_append, List.foldl_cons, List.foldl_nil]
    have := RfInv.row h hN (RfInv.rows h hN ht M) N le_rfl
    exact ⟨this.nonneg, fun a b hab => this.done a b (by omega), fun a b hab => this.orig a b (by omega)⟩

theorem fw_done (h : RingCost n E) {N : ℕ} (hN : n ≤ N) {t : RfTab} (ht : ∀ a b, RfOrig n E t a b) :
    ∀ a b, a < N → b < N → RfDone n E (fw N t) a b := by
  intro a b ha hb
  have h0 : RfInv n N E 0 0 t :=
    ⟨fun a b => by rw [(ht a b).1]; exact ringTab_nonneg h.nonneg _ _, fun a b hab => by omega,
      fun a b _ => ht a b⟩
  have hr : pyRange 0 N = List.range N := by
    unfold pyRange; rw [Nat.sub_zero, List.range_eq_range']
  have := (RfInv.rows h hN h0 N).done a b (.inl ⟨ha, hb⟩)
  unfold fw
  rw [hr]
  exact this

/-! ## The best start -/

theorem ringCost_per (h : RingCost n E) : ∀ (ls : List ℕ) (i : ℕ), ringCost E (i + n) ls = ringCost E i ls
  | [], _ => rfl
  | l :: t, i => by
    rw [ringCost, ringCost, h.per, Nat.add_right_comm, ringCost_per h t]

theorem ring_cross (h : RingCost n E) {i : ℕ} : ∀ (ls : List ℕ) (x : ℕ), (∀ l ∈ ls, 1 ≤ l) → i ≤ x → x < n →
    ls.sum = i + n - x → ∃ c m, x ≤ c ∧ c < n ∧ m ≤ i ∧
      ringBest E x (c - x) + (E c (m + n - c) + ringBest E m (i - m)) ≤ ringCost E x ls
  | [], x, _, h1, h2, h3 => by simp at h3; omega
  | l :: t, x, hl, h1, h2, h3 => by
    have hl1 := hl l List.mem_cons_self
    have hlt : ∀ l ∈ t, 1 ≤ l := fun a ha => hl a (List.mem_cons_of_mem _ ha)
    rw [List.sum_cons] at h3
    by_cases hx : n ≤ x + l
    · refine ⟨x, x + l - n, le_rfl, h2, by omega, ?_⟩
      rw [Nat.sub_self, ringBest_zero, zero_add, ringCost]
      rw [show x + l - n + n - x = l by omega]
      refine add_le_add le_rfl ?_
      have := ringBest_le_cost h t (x + l) hlt
      rw [show t.sum = i - (x + l - n) by omega] at this
      rwa [show ringBest E (x + l) = ringBest E (x + l - n + n) by rw [show x + l - n + n = x + l by omega],
        ringBest_per h] at this
    · obtain ⟨c, m, c1, c2, c3, c4⟩ := ring_cross (i := i) h t (x + l) hlt (by omega) (by omega) (by omega)
      refine ⟨c, m, by omega, c2, c3, ?_⟩
      rw [ringCost]
      have := ringBest_le (E := E) (i := x) (m := c - x) hl1 (by omega)
      rw [show c - x - l = c - (x + l) by omega] at this
      refine le_trans (add_le_add this le_rfl) ?_
      rw [add_assoc]
      exact add_le_add le_rfl c4

/-- After the loops some entry of the diagonal is no more than the cost of any split. -/
theorem fw_diag_le (h : RingCost n E) {N : ℕ} (hN : n ≤ N) {t : RfTab}
    (ht : ∀ a b, a < N → b < N → RfDone n E t a b) {i : ℕ} (hi : i < n) {ls : List ℕ} (hl : ∀ l ∈ ls, 1 ≤ l)
    (hs : ls.sum = n) : ∃ c < n, t.dist c c ≤ ringCost E i ls := by
  obtain ⟨c, m, c1, c2, c3, c4⟩ := ring_cross h ls i hl le_rfl hi (by omega)
  refine ⟨c, c2, le_trans ?_ c4⟩
  by_cases hm : m < c
  · refine le_trans ((ht c c (by omega) (by omega)).wrp le_rfl m hm) ?_
    rw [ringTab_wrap (by omega) c2, ringTab_fwd hm c2]
    have := ringBest_append (E := E) (i - m) (c - i) m
    rw [show i - m + (c - i) = c - m by omega, show m + (i - m) = i by omega] at this
    refine le_trans (add_le_add le_rfl this) ?_
    rw [← add_assoc, add_comm]
  · have hE : E c (m + n - c) = ⊤ := h.full _ _ (by omega)
    rw [hE, top_add, add_top]
    exact le_top

/-! ## Following the table -/

/-- The number of positions after `u` up to `v`. -/
def ringLen (n u v : ℕ) : ℕ := if u < v then v - u else v + n - u

/-- The lengths of the segments found by following `next` from `u` until `b`. -/
def RfFollows (n : ℕ) (next : ℕ → ℕ → ℕ) (b : ℕ) : ℕ → List ℕ → Prop
  | _, [] => False
  | u, l :: t => next u b < n ∧ l = ringLen n u (next u b) ∧
      ((next u b = b ∧ t = []) ∨ (next u b ≠ b ∧ RfFollows n next b (next u b) t))

theorem ringTab_len {X : ℕ → ℕ → WithTop ℚ} {i j : ℕ} (hi : i < n) (hj : j < n) :
    ringTab n X i j = X i (ringLen n i j) := by
  unfold ringTab ringLen
  rw [if_pos ⟨hi, hj⟩]
  split <;> rfl

theorem ringLen_hop (h : RingCost n E) {u v : ℕ} (hu : u < n) (ls : List ℕ) :
    ringCost E (u + ringLen n u v) ls = ringCost E v ls := by
  unfold ringLen
  split
  · congr 1; omega
  · rw [show u + (v + n - u) = v + n by omega, ringCost_per h]

theorem fw_follow (h : RingCost n E) {N b : ℕ} (hN : n ≤ N) {t : RfTab} (hb : b < n)
    (ht : ∀ a b, a < N → b < N → RfDone n E t a b) : ∀ (k u : ℕ), u < n → ringLen n u b ≤ k →
    t.dist u b = ringTab n (ringBest E) u b → t.dist u b < ⊤ →
    ∃ ls, RfFollows n t.next b u ls ∧ (∀ l ∈ ls, 1 ≤ l) ∧ ls.sum = ringLen n u b ∧
      ringCost E u ls ≤ ringTab n (ringBest E) u b := by
  intro k
  induction k with
  | zero =>
    intro u hu hk
    unfold ringLen at hk
    split at hk <;> omega
  | succ k ih =>
    intro u hu hk heq hfin
    have hptr := (ht u b (by omega) (by omega)).ptr heq hfin
    -- one more hop
    have hop : ∀ p, t.next u b = p → p < n → p ≠ b → ringLen n u p + ringLen n p b = ringLen n u b → 1 ≤ ringLen n u p →
        t.dist p b ≤ ringTab n (ringBest E) p b →
        ringTab n E u p + ringTab n (ringBest E) p b ≤ ringTab n (ringBest E) u b →
        ∃ ls, RfFollows n t.next b u ls ∧ (∀ l ∈ ls, 1 ≤ l) ∧ ls.sum = ringLen n u b ∧
          ringCost E u ls ≤ ringTab n (ringBest E) u b := by
      intro p hp hpn hpb hlen h1 htight hcost
      have hpeq := le_antisymm htight (ht p b (by omega) (by omega)).lb
      have hpfin : t.dist p b < ⊤ := by
        rw [hpeq]
        refine lt_of_le_of_lt (le_trans (le_add_of_nonneg_left (ringTab_nonneg h.nonneg u p)) hcost) ?_
        rw [← heq]; exact hfin
      obtain ⟨ls, f1, f2, f3, f4⟩ := ih p hpn (by omega) hpeq hpfin
      refine ⟨ringLen n u p :: ls, ⟨?_, ?_, ?_⟩, ?_, ?_, ?_⟩
      · rw [hp]; exact hpn
      · rw [hp]
      · rw [hp]; exact .inr ⟨hpb, f1⟩
      · intro l hl
        rcases List.mem_cons.1 hl with rfl | hl
        · exact h1
        · exact f2 l hl
      · rw [List.sum_cons, f3, hlen]
      · rw [ringCost, ringLen_hop h hu]
        refine le_trans (add_le_add le_rfl f4) ?_
        rw [← ringTab_len (X := E) hu hpn]
        exact hcost
    rcases hptr with ⟨p1, p2, p3⟩ | ⟨p1, p2, pn, p3, m, hm, p4⟩
    · by_cases hpb : t.next u b = b
      · refine ⟨[ringLen n u b], ⟨by rw [hpb]; exact hb, by rw [hpb], .inl ⟨hpb, rfl⟩⟩, ?_, by simp, ?_⟩
        · intro l hl
          rw [List.mem_singleton] at hl
          subst hl
          unfold ringLen
          split <;> omega
        · rw [hpb, Nat.sub_self, ringBest_zero, add_zero] at p3
          simp only [ringCost, add_zero]
          rw [← ringTab_len (X := E) hu hb]
          exact p3
      · have hlt : t.next u b < b := by omega
        refine hop _ rfl (by omega) hpb ?_ ?_ ?_ ?_
        · unfold ringLen
          rw [if_pos hlt]
          by_cases hub : u < b
          · have := p1 hub
            rw [if_pos hub, if_pos this]; omega
          · rw [if_neg hub, if_neg (by omega)]; omega
        · unfold ringLen; split <;> omega
        · rw [(ht _ b (by omega) (by omega)).fwd hlt]
        · rw [ringTab_fwd hlt hb]; exact p3
    · have hpb : t.next u b ≠ b := by omega
      refine hop _ rfl pn hpb ?_ ?_ ?_ p3
      · unfold ringLen
        rw [if_pos p2, if_neg (by omega), if_neg (by omega)]; omega
      · unfold ringLen; split <;> omega
      · have hD := ht (t.next u b) b (by omega) (by omega)
        by_cases hmb : m = b
        · rw [hmb, Nat.sub_self, ringBest_zero, add_zero] at p4
          exact le_trans hD.ub p4
        · have hlt : m < b := by omega
          refine le_trans (hD.wrp (by omega) m hlt) ?_
          rw [ringTab_fwd hlt hb]; exact p4

end Verif
