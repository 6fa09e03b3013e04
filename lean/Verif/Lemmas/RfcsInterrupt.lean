import Verif.Model.RfcsInterrupt
import Verif.Lemmas.RfcsTable

/-! # Lemmas on the interrupts of the partition of a giant tour -/

namespace Verif

open Spec

variable {g : List ℕ} {popt : Router} {D : ℕ → ℕ → ℚ} {d : ℕ → ℚ} {C L : Option ℚ} {const : ℚ} {n : ℕ}

/-! ## The costs that are in the table at some time -/

/-- The first `u` rows of the costs and the first `k` costs of the next row. -/
def cutE (n u k : ℕ) (E : ℕ → ℕ → WithTop ℚ) (i l : ℕ) : WithTop ℚ :=
  if i % n < u ∨ i % n = u ∧ l ≤ k then E i l else ⊤

theorem cutE_ge (n u k : ℕ) (E : ℕ → ℕ → WithTop ℚ) (i l : ℕ) : E i l ≤ cutE n u k E i l := by
  unfold cutE
  split
  · exact le_rfl
  · exact le_top

theorem cutE_ring {E : ℕ → ℕ → WithTop ℚ} (h : RingCost n E) (u k : ℕ) : RingCost n (cutE n u k E) := by
  refine ⟨h.pos, ?_, ?_, ?_, ?_⟩
  · intro i l; exact le_trans (h.nonneg i l) (cutE_ge ..)
  · intro i l l' h1 h2
    unfold cutE
    by_cases hc : i % n < u ∨ i % n = u ∧ l' ≤ k
    · rw [if_pos hc, if_pos (by omega)]; exact h.mono i l l' h1 h2
    · rw [if_neg hc]; exact le_top
  · intro i l
    unfold cutE
    rw [Nat.add_mod_right, h.per]
  · intro i l hl
    exact top_le_iff.1 (le_trans (by rw [h.full i l hl]) (cutE_ge n u k E i l))

theorem cutE_row {E : ℕ → ℕ → WithTop ℚ} {u k i l : ℕ} (hi : i < n) (h : cutE n u k E i l < ⊤) : i ≤ u := by
  unfold cutE at h
  rw [Nat.mod_eq_of_lt hi] at h
  by_contra hc
  rw [if_neg (by omega)] at h
  exact lt_irrefl _ h

theorem ringCost_mono {E E' : ℕ → ℕ → WithTop ℚ} (h : ∀ i l, E i l ≤ E' i l) : ∀ (ls : List ℕ) (i : ℕ),
    ringCost E i ls ≤ ringCost E' i ls
  | [], _ => le_rfl
  | l :: t, i => by
    rw [ringCost, ringCost]
    exact add_le_add (h i l) (ringCost_mono h t (i + l))

theorem ringCost_split {E : ℕ → ℕ → WithTop ℚ} {i l : ℕ} {t : List ℕ} (h : ringCost E i (l :: t) < ⊤) :
    E i l < ⊤ ∧ ringCost E (i + l) t < ⊤ := by
  rw [ringCost] at h
  constructor
  · rw [lt_top_iff_ne_top]; intro e; rw [e, top_add] at h; exact lt_irrefl _ h
  · rw [lt_top_iff_ne_top]; intro e; rw [e, add_top] at h; exact lt_irrefl _ h

/-! ## The three loops -/

/-- The tables differ in a pointer from `u` to `v` only, which is not yet set. -/
def NextRel (u v : ℕ) (t tg : RfTab) : Prop :=
  t.dist = tg.dist ∧ ∀ a b, t.next a b = tg.next a b ∨ (a = u ∧ tg.next a b = v ∧ t.next a b = 0)

theorem NextRel.step {u v : ℕ} {t tg : RfTab} (h : NextRel u v t tg) (i j k : ℕ) :
    NextRel u v (fwStep i j t k) (fwStep i j tg k) := by
  unfold fwStep
  rw [h.1]
  by_cases hc : tg.dist i k + tg.dist k j < tg.dist i j
  · rw [if_pos hc, if_pos hc]
    refine ⟨?_, ?_⟩
    · funext a b; simp only [RfTab.put]; rw [h.1]
    · intro a b
      simp only [RfTab.put]
      by_cases hab : a = i ∧ b = j
      · rw [if_pos hab, if_pos hab, hab.1]; exact h.2 i k
      · rw [if_neg hab, if_neg hab]; exact h.2 a b
  · rw [if_neg hc, if_neg hc]; exact h

theorem NextRel.fw {u v N : ℕ} {t tg : RfTab} (h : NextRel u v t tg) : NextRel u v (fw N t) (fw N tg) := by
  have h1 : ∀ (i j : ℕ) (ks : List ℕ) (t tg : RfTab), NextRel u v t tg →
      NextRel u v (ks.foldl (fwStep i j) t) (ks.foldl (fwStep i j) tg) := by
    intro i j ks
    induction ks with
    | nil => intro t tg h; exact h
    | cons k ks ih => intro t tg h; exact ih _ _ (h.step i j k)
  have h2 : ∀ (i : ℕ) (js ks : List ℕ) (t tg : RfTab), NextRel u v t tg →
      NextRel u v (js.foldl (fun t j => ks.foldl (fwStep i j) t) t) (js.foldl (fun t j => ks.foldl (fwStep i j) t) tg) := by
    intro i js ks
    induction js with
    | nil => intro t tg h; exact h
    | cons j js ih => intro t tg h; exact ih _ _ (h1 i j ks _ _ h)
  have h3 : ∀ (is js ks : List ℕ) (t tg : RfTab), NextRel u v t tg →
      NextRel u v (is.foldl (fun t i => js.foldl (fun t j => ks.foldl (fwStep i j) t) t) t)
        (is.foldl (fun t i => js.foldl (fun t j => ks.foldl (fwStep i j) t) t) tg) := by
    intro is js ks
    induction is with
    | nil => intro t tg h; exact h
    | cons i is ih => intro t tg h; exact ih _ _ (h2 i js ks _ _ h)
  exact h3 _ _ _ _ _ h

/-- Where the cost stays infinite the pointer is as before. -/
def TopSame (t0 t : RfTab) : Prop := ∀ a b, t.dist a b = ⊤ → t.next a b = t0.next a b

theorem TopSame.fw {N : ℕ} (t : RfTab) : TopSame t (fw N t) := by
  have h0 : ∀ (i j k : ℕ) (t0 t : RfTab), TopSame t0 t → TopSame t0 (fwStep i j t k) := by
    intro i j k t0 t h a b
    unfold fwStep
    by_cases hc : t.dist i k + t.dist k j < t.dist i j
    · rw [if_pos hc]
      simp only [RfTab.put]
      by_cases hab : a = i ∧ b = j
      · rw [if_pos hab]
        intro e
        rw [e] at hc
        exact absurd hc (not_lt.2 le_top)
      · rw [if_neg hab, if_neg hab]; exact h a b
    · rw [if_neg hc]; exact h a b
  have h1 : ∀ (i j : ℕ) (ks : List ℕ) (t0 t : RfTab), TopSame t0 t → TopSame t0 (ks.foldl (fwStep i j) t) := by
    intro i j ks t0
    induction ks with
    | nil => intro t h; exact h
    | cons k ks ih => intro t h; exact ih _ (h0 i j k _ _ h)
  have h2 : ∀ (i : ℕ) (js ks : List ℕ) (t0 t : RfTab), TopSame t0 t →
      TopSame t0 (js.foldl (fun t j => ks.foldl (fwStep i j) t) t) := by
    intro i js ks t0
    induction js with
    | nil => intro t h; exact h
    | cons j js ih => intro t h; exact ih _ (h1 i j ks _ _ h)
  have h3 : ∀ (is js ks : List ℕ) (t0 t : RfTab), TopSame t0 t →
      TopSame t0 (is.foldl (fun t i => js.foldl (fun t j => ks.foldl (fwStep i j) t) t) t) := by
    intro is js ks t0
    induction is with
    | nil => intro t h; exact h
    | cons i is ih => intro t h; exact ih _ (h2 i js ks _ _ h)
  exact h3 _ _ _ _ _ fun _ _ _ => rfl

/-! ## Following the pointers -/

/-- Before `b` the pointers of the two tables are the same. -/
theorem follows_below {nt ng : ℕ → ℕ → ℕ} {b : ℕ} (hs : ∀ a < b, nt a b = ng a b) : ∀ (ls : List ℕ) (x : ℕ), x < b → b < n →
    RfFollows n ng b x ls → (∀ l ∈ ls, 1 ≤ l) → ls.sum = b - x → RfFollows n nt b x ls
  | [], _, _, _, h, _, _ => h.elim
  | l :: t, x, hx, hb, h, hl, hsum => by
    obtain ⟨h1, h2, h3⟩ := h
    have hlt : ∀ l ∈ t, 1 ≤ l := fun a ha => hl a (List.mem_cons_of_mem _ ha)
    rw [List.sum_cons] at hsum
    have hl1 := hl l List.mem_cons_self
    rw [RfFollows, hs x hx]
    refine ⟨h1, h2, ?_⟩
    rcases h3 with h3 | ⟨h3, h4⟩
    · exact .inl h3
    · refine .inr ⟨h3, ?_⟩
      have hxl : ng x b = x + l := by
        unfold ringLen at h2
        split at h2 <;> omega
      have htne : 1 ≤ t.sum := by
        cases t with
        | nil => exact h4.elim
        | cons a t => have := hlt a List.mem_cons_self; rw [List.sum_cons]; omega
      exact follows_below hs t (ng x b) (by omega) hb h4 hlt (by omega)

theorem singles_fin {E : ℕ → ℕ → WithTop ℚ} {b : ℕ} (h : ∀ i < b, E i 1 < ⊤) : ∀ m x, x + m = b →
    ringCost E x (List.replicate m 1) < ⊤
  | 0, _, _ => by rw [List.replicate_zero, ringCost]; exact WithTop.coe_lt_top (0 : ℚ)
  | m + 1, x, hx => by
    rw [List.replicate_succ, ringCost]
    exact WithTop.add_lt_top.2 ⟨h x (by omega), singles_fin h m (x + 1) (by omega)⟩

/-- Following the pointers of a table in which one pointer is not yet set also leads around the ring once. -/
theorem cut_follow {E : ℕ → ℕ → WithTop ℚ} (h : RingCost n E) {N u v b : ℕ} (hN : n ≤ N) (hu : u < n) {tg : RfTab}
    (hrow : ∀ i l, i < n → E i l < ⊤ → i ≤ u) (hone : ∀ i < u, E i 1 < ⊤)
    (hdone : ∀ a b, a < N → b < N → RfDone n E tg a b) {nt : ℕ → ℕ → ℕ} (hb : b < n) (hbu : b ≤ u)
    (hrel : ∀ a b, nt a b = tg.next a b ∨ (a = u ∧ tg.next a b = v ∧ nt a b = 0)) : ∀ (ls : List ℕ) (x : ℕ), x < n →
    RfFollows n tg.next b x ls → (∀ l ∈ ls, 1 ≤ l) → ls.sum = ringLen n x b → ringCost E x ls < ⊤ →
    ∃ ls', RfFollows n nt b x ls' ∧ (∀ l ∈ ls', 1 ≤ l) ∧ ls'.sum = ringLen n x b ∧ ringCost E x ls' < ⊤
  | [], _, _, h, _, _, _ => h.elim
  | l :: t, x, hx, hf, hl, hsum, hfin => by
    obtain ⟨h1, h2, h3⟩ := hf
    have hlt : ∀ l ∈ t, 1 ≤ l := fun a ha => hl a (List.mem_cons_of_mem _ ha)
    have hl1 := hl l List.mem_cons_self
    obtain ⟨hfa, hfb⟩ := ringCost_split hfin
    rw [List.sum_cons] at hsum
    have hhop : ∀ ls, ringCost E (x + l) ls = ringCost E (tg.next x b) ls := by
      intro ls; rw [h2]; exact ringLen_hop h hx ls
    by_cases heq : nt x b = tg.next x b
    · rcases h3 with ⟨h3, rfl⟩ | ⟨h3, h4⟩
      · refine ⟨[l], ⟨by rw [heq]; exact h1, by rw [heq]; exact h2, .inl ⟨by rw [heq]; exact h3, rfl⟩⟩, hl, ?_, hfin⟩
        rw [List.sum_cons]; exact hsum
      · have hsum' : t.sum = ringLen n (tg.next x b) b := by
          have htne : 1 ≤ t.sum := by
            cases t with
            | nil => exact h4.elim
            | cons a t => have := hlt a List.mem_cons_self; rw [List.sum_cons]; omega
          unfold ringLen at h2 hsum ⊢
          split at h2 <;> split at hsum <;> split <;> omega
        rw [hhop] at hfb
        obtain ⟨ls', e1, e2, e3, e4⟩ := cut_follow h hN hu hrow hone hdone hb hbu hrel t (tg.next x b) h1 h4 hlt hsum' hfb
        refine ⟨l :: ls', ⟨by rw [heq]; exact h1, by rw [heq]; exact h2, .inr ⟨by rw [heq]; exact h3, by rw [heq]; exact e1⟩⟩,
          ?_, ?_, ?_⟩
        · intro a ha
          rcases List.mem_cons.1 ha with rfl | ha
          · exact hl1
          · exact e2 a ha
        · rw [List.sum_cons, e3, ← hsum', hsum]
        · rw [ringCost, hhop]
          exact WithTop.add_lt_top.2 ⟨hfa, e4⟩
    · rcases hrel x b with hr | ⟨rfl, hr1, hr2⟩
      · exact absurd hr heq
      rw [hr2] at heq
      rw [hr1] at h1 h2 h3 heq hhop
      have hvu : v ≤ x := by
        rcases h3 with ⟨rfl, _⟩ | ⟨_, h4⟩
        · exact hbu
        · cases t with
          | nil => exact h4.elim
          | cons a t =>
            rw [hhop] at hfb
            exact hrow v a h1 (ringCost_split hfb).1
      have hlen : l = v + n - x := by
        rw [h2]; unfold ringLen; rw [if_neg (by omega)]
      have hlenb : ringLen n x b = b + n - x := by unfold ringLen; rw [if_neg (by omega)]
      have hb0 : 0 < b := by rw [hlenb] at hsum; omega
      have hd0 := hdone 0 b (by omega) (by omega)
      have hfin0 : tg.dist 0 b < ⊤ := by
        rw [hd0.fwd hb0, ringTab_fwd hb0 hb, Nat.sub_zero]
        have := ringBest_le_cost h (List.replicate b 1) 0 (fun l hl => by rw [List.eq_of_mem_replicate hl])
        rw [show (List.replicate b 1).sum = b by simp] at this
        exact lt_of_le_of_lt this (singles_fin (b := b) (fun i hi => hone i (by omega)) b 0 (by omega))
      obtain ⟨ls, f1, f2, f3, f4⟩ := fw_follow h hN hb hdone (ringLen n 0 b) 0 (by omega) le_rfl (hd0.fwd hb0) hfin0
      rw [← hd0.fwd hb0] at f4
      have hlen0 : ringLen n 0 b = b := by unfold ringLen; rw [if_pos hb0]; omega
      rw [hlen0] at f3
      refine ⟨(n - x) :: ls, ⟨?_, ?_, .inr ⟨?_, ?_⟩⟩, ?_, ?_, ?_⟩
      · rw [hr2]; omega
      · rw [hr2]; unfold ringLen; rw [if_neg (by omega)]; omega
      · rw [hr2]; omega
      · rw [hr2]
        refine follows_below (fun a ha => ?_) ls 0 hb0 hb f1 f2 (by omega)
        rcases hrel a b with hr | ⟨rfl, _⟩
        · exact hr
        · omega
      · intro a ha
        rcases List.mem_cons.1 ha with rfl | ha
        · omega
        · exact f2 a ha
      · rw [List.sum_cons, f3, hlenb]; omega
      · rw [ringCost, show x + (n - x) = 0 + n by omega, ringCost_per h]
        exact WithTop.add_lt_top.2 ⟨lt_of_le_of_lt (h.mono x _ _ (by omega) (by omega : n - x ≤ l)) hfa,
          lt_of_le_of_lt f4 hfin0⟩

/-- A split of the whole ring that starts in the first `u + 1` rows and uses these only has a long segment. -/
theorem long_segment {E : ℕ → ℕ → WithTop ℚ} {u : ℕ} (hrow : ∀ i l, i < n → E i l < ⊤ → i ≤ u) : ∀ (ls : List ℕ) (x : ℕ),
    x < n → ringCost E x ls < ⊤ → n - x ≤ ls.sum → ∃ l ∈ ls, n - u ≤ l
  | [], x, hx, _, hs => by simp at hs; omega
  | l :: t, x, hx, hf, hs => by
    obtain ⟨h1, h2⟩ := ringCost_split hf
    have hxu := hrow x l hx h1
    by_cases hxl : n ≤ x + l
    · exact ⟨l, List.mem_cons_self, by omega⟩
    · obtain ⟨m, hm, hm2⟩ := long_segment hrow t (x + l) (by omega) h2 (by rw [List.sum_cons] at hs; omega)
      exact ⟨m, List.mem_cons_of_mem _ hm, hm2⟩

/-! ## The tables -/

theorem rfRows_part {rest : List ℕ} (hp : TspRoutine D popt) (hg : (0 :: g).Nodup) : ∀ (m a : ℕ) (t : RfTab),
    a + m ≤ g.length → (∀ x b, a ≤ x → t.dist x b = ⊤) →
    (∀ x b, x < a → RfOrig g.length (segE g d C L const popt) t x b) →
    ∃ t', rfRows d C L const popt (g ++ rest) g.length (List.range' a m) t = .ok t' ∧
      (∀ x b, a + m ≤ x → t'.dist x b = ⊤) ∧ (∀ x, t'.next x x = t.next x x) ∧
      (∀ x b, a + m ≤ x → t'.next x b = t.next x b) ∧
      ∀ x b, x < a + m → RfOrig g.length (segE g d C L const popt) t' x b := by
  intro m
  induction m with
  | zero => intro a t ha htop horig; exact ⟨t, rfl, htop, fun _ => rfl, fun _ _ _ => rfl, horig⟩
  | succ m ih =>
    intro a t ha htop horig
    obtain ⟨t', e1, e2, e3, e4⟩ := rfRow_ok (d := d) (C := C) (L := L) (const := const) (rest := rest) hp hg
      (u := a) (by omega) (fun b => htop a b le_rfl)
    rw [List.range'_succ]
    unfold rfRows
    rw [e1]
    obtain ⟨t'', f1, f2, f3, f4, f5⟩ := ih (a + 1) t' (by omega) (by
      intro x b hx
      rw [(e2 x b (by omega)).1]
      exact htop x b (by omega)) (by
      intro x b hx
      by_cases hxa : x = a
      · rw [hxa]; exact e3 b
      · have := horig x b (by omega)
        unfold RfOrig
        rw [(e2 x b hxa).1, (e2 x b hxa).2]
        exact this)
    refine ⟨t'', f1, fun x b hx => f2 x b (by omega), fun x => ?_, fun x b hx => ?_, fun x b hx => f5 x b (by omega)⟩
    · rw [f3]
      by_cases hxa : x = a
      · rw [hxa]; exact e4
      · exact (e2 x x hxa).2
    · rw [f4 x b (by omega)]; exact (e2 x b (by omega)).2

/-- An entry of the row `u` is for a position at some distance from `u`. -/
theorem ring_pos {u b : ℕ} (hu : u < n) (hb : b < n) : 1 ≤ ringLen n u b ∧ ringLen n u b ≤ n ∧
    (u + ringLen n u b) % n = b := by
  unfold ringLen
  split
  · refine ⟨by omega, by omega, ?_⟩
    rw [show u + (b - u) = b by omega, Nat.mod_eq_of_lt hb]
  · refine ⟨by omega, by omega, ?_⟩
    rw [show u + (b + n - u) = b + n by omega, Nat.add_mod_right, Nat.mod_eq_of_lt hb]

/-- A table of which the first `u` rows and the first `k` entries of the next row are filled. -/
theorem orig_cut {E : ℕ → ℕ → WithTop ℚ} (h : RingCost n E) {u k : ℕ} (hu : u < n) {t : RfTab}
    (h1 : ∀ x b, x < u → RfOrig n E t x b) (h2 : ∀ x b, u < x → t.dist x b = ⊤)
    (h3 : ∀ l, 1 ≤ l → l ≤ k → l < n → t.dist u ((u + l) % n) = E u l ∧
      (E u l < ⊤ → t.next u ((u + l) % n) = (u + l) % n))
    (h4 : ∀ b, (¬ ∃ l, 1 ≤ l ∧ l ≤ k ∧ l < n ∧ b = (u + l) % n) → t.dist u b = ⊤) :
    ∀ a b, RfOrig n (cutE n u k E) t a b := by
  intro a b
  unfold RfOrig
  by_cases hab : a < n ∧ b < n
  · rw [ringTab_len hab.1 hab.2]
    unfold cutE
    rw [Nat.mod_eq_of_lt hab.1]
    rcases lt_trichotomy a u with hau | rfl | hau
    · rw [if_pos (.inl hau)]
      have := h1 a b hau
      unfold RfOrig at this
      rwa [ringTab_len hab.1 hab.2] at this
    · obtain ⟨p1, p2, p3⟩ := ring_pos hab.1 hab.2
      by_cases hk : ringLen n a b ≤ k ∧ ringLen n a b < n
      · rw [if_pos (.inr ⟨rfl, hk.1⟩)]
        have := h3 _ p1 hk.1 hk.2
        rwa [p3] at this
      · have hd := h4 b (by
          rintro ⟨l, l1, l2, l3, l4⟩
          by_cases hn : ringLen n a b < n
          · have := add_mod_inj (u := a) hn l3 (by rw [p3]; exact l4)
            omega
          · have hne : ringLen n a b = n := by omega
            rw [hne, Nat.add_mod_right, Nat.mod_eq_of_lt hab.1] at p3
            have := add_mod_inj (u := a) (k := 0) (k' := l) (by omega) l3 (by
              rw [Nat.add_zero, Nat.mod_eq_of_lt hab.1, ← l4, p3])
            omega)
        have : (if a < a ∨ a = a ∧ ringLen n a b ≤ k then E a (ringLen n a b) else ⊤) = ⊤ := by
          split
          · rename_i hc
            exact h.full _ _ (by omega)
          · rfl
        rw [this, hd]
        exact ⟨rfl, fun h => absurd h (lt_irrefl _)⟩
    · rw [if_neg (by omega), h2 a b hau]
      exact ⟨rfl, fun h => absurd h (lt_irrefl _)⟩
  · have ht : ∀ X : ℕ → ℕ → WithTop ℚ, ringTab n X a b = ⊤ := by intro X; unfold ringTab; rw [if_neg hab]
    rw [ht]
    refine ⟨?_, fun h => absurd h (lt_irrefl _)⟩
    rcases lt_trichotomy a u with hau | rfl | hau
    · have := (h1 a b hau).1; rwa [ht] at this
    · refine h4 b ?_
      rintro ⟨l, _, _, _, l4⟩
      exact hab ⟨hu, by rw [l4]; exact Nat.mod_lt _ (by omega)⟩
    · exact h2 a b hau

theorem rfRing_take {u k : ℕ} (hu : u < n) :
    (rfRing u n).take k = (List.range' (u + 1) (min k (n - 1))).map (· % n) := by
  rw [rfRing_eq hu, ← List.map_take]
  congr 1
  by_cases h : k ≤ n - 1
  · rw [List.take_range'_of_length_ge h, Nat.min_eq_left h]
  · rw [List.take_range'_of_length_le (by omega), Nat.min_eq_right (by omega)]

theorem rfCalls_ok {rest : List ℕ} (h2 : 2 ≤ g.length) (hs : ∀ x ∈ g, Within C C_EPS (demand d [x])) {u : ℕ}
    (hu : u < g.length) : rfCalls d C (g ++ rest) g.length u = true := by
  unfold rfCalls
  rw [rfRing_eq hu, List.head?_map, List.head?_range', if_neg (by omega)]
  simp only [Option.map_some]
  rw [ringIdx (by omega)]
  simp only
  have hx : ringAt g (u + 1) ∈ g := by
    unfold ringAt
    rw [List.getD_eq_getElem _ _ (Nat.mod_lt _ (by omega))]
    exact List.getElem_mem _
  have := (exceeds_iff C C_EPS (0 + d (ringAt g (u + 1)))).2 (by
    have := hs _ hx
    simpa [demand] using this)
  rw [this]; rfl

theorem NextRel.refl (u v : ℕ) (t : RfTab) : NextRel u v t t := ⟨rfl, fun _ _ => .inl rfl⟩

/-- The tables at the time of the interrupt. -/
theorem rfCut_ok {rest : List ℕ} (hp : TspRoutine D popt) (hg : (0 :: g).Nodup) (h2 : 2 ≤ g.length)
    (hm : GrowsLonger popt) (hc : 0 ≤ const) (hs : ∀ x ∈ g, Within C C_EPS (demand d [x]))
    {p : RfPoint} (hr : p.rows < g.length) :
    ∃ t called k v tg, rfCut d C L const popt (g ++ rest) g.length p = .ok (t, called) ∧ NextRel p.rows v t tg ∧
      (∀ a b, RfOrig g.length (cutE g.length p.rows k (segE g d C L const popt)) tg a b) ∧ t.next 0 0 = 0 ∧
      (called = false ↔ p.rows = 0 ∧ p.cells = 0 ∧ p.step = .before) := by
  have hring := segE_ring (d := d) (C := C) (L := L) hg (by omega) hm hc
  obtain ⟨t0, r1, r2, r3, r4, r5⟩ := rfRows_part (d := d) (C := C) (L := L) (const := const) (rest := rest) hp hg
    p.rows 0 ⟨fun _ _ => ⊤, fun _ _ => 0⟩ (by omega) (fun _ _ _ => rfl) (fun _ _ h => by omega)
  rw [Nat.zero_add] at r2 r4 r5
  have hcum : cumDemand C d (seg g p.rows 0) = 0 := by unfold cumDemand; rw [seg_zero]; simp [demand]
  have hseg0 : (grown popt (seg g p.rows 0)).1 = [0, 0] := rfl
  obtain ⟨s, br, e1, e2, e3, e4, e5⟩ := rfRow_loop (d := d) (C := C) (L := L) (const := const) (rest := rest) hp hg hr
    (min p.cells (g.length - 1)) 0 t0 (by omega) (fun k h1 h2 => by omega) (fun k _ _ => r2 _ _ le_rfl)
  rw [hcum, hseg0, Nat.add_zero, ← rfRing_take hr] at e1
  rw [Nat.zero_add] at e2 e3 e4 e5
  set k := min p.cells (g.length - 1) with hk
  have hcalled : ((pyRange 0 p.rows).any (rfCalls d C (g ++ rest) g.length) ||
      (p.cells != 0 && rfCalls d C (g ++ rest) g.length p.rows)) = false ↔ p.rows = 0 ∧ p.cells = 0 := by
    rw [rfCalls_ok h2 hs hr, Bool.and_true, Bool.or_eq_false_iff]
    constructor
    · rintro ⟨h1, h3⟩
      refine ⟨?_, by simpa using h3⟩
      by_contra hne
      rw [List.any_eq_false] at h1
      exact h1 0 (by unfold pyRange; rw [List.mem_range'_1]; omega) (rfCalls_ok h2 hs (by omega))
    · rintro ⟨h1, h3⟩
      rw [h1, h3]
      exact ⟨rfl, rfl⟩
  have hs00 : s.2.2.next 0 0 = 0 := by
    have := e2 0 0 (by
      rintro ⟨l, l1, l2, l3, l4⟩
      rw [← l3, Nat.zero_add, Nat.mod_eq_of_lt (by omega)] at l4
      omega)
    rw [this.2, r3 0]
  -- without the last write
  have hplain : ∀ a b, RfOrig g.length (cutE g.length p.rows k (segE g d C L const popt)) s.2.2 a b := by
    refine orig_cut hring hr ?_ ?_ ?_ ?_
    · intro x b hx
      have h1 := e2 x b (fun ⟨_, _, _, h, _⟩ => by omega)
      unfold RfOrig
      rw [h1.1, h1.2]
      exact r5 x b hx
    · intro x b hx
      rw [(e2 x b (fun ⟨_, _, _, h, _⟩ => by omega)).1]
      exact r2 x b (by omega)
    · intro l l1 l2 _
      exact e3 l (by omega) l2
    · intro b hb
      rw [(e2 p.rows b (fun ⟨l, l1, l2, _, l4⟩ => hb ⟨l, by omega, l2, by omega, l4⟩)).1]
      exact r2 _ _ le_rfl
  unfold rfCut
  have hrange : pyRange 0 p.rows = List.range' 0 p.rows := by unfold pyRange; rw [Nat.sub_zero]
  rw [hrange, r1]
  simp only
  rw [e1]
  simp only
  rw [hrange] at hcalled
  generalize ((List.range' 0 p.rows).any (rfCalls d C (g ++ rest) g.length) ||
      (p.cells != 0 && rfCalls d C (g ++ rest) g.length p.rows)) = called at hcalled
  have hend : p.rows = 0 ∧ p.cells = 0 → br = false ∧ p.cells < g.length - 1 := by
    rintro ⟨_, h⟩
    refine ⟨?_, by omega⟩
    cases hb : br with
    | false => rfl
    | true =>
      obtain ⟨l, l1, l2, _⟩ := e5 hb
      omega
  by_cases hbr : br = true
  · rw [if_pos hbr]
    refine ⟨_, called, k, 0, _, rfl, NextRel.refl _ _ _, hplain, hs00, ?_⟩
    rw [hcalled]
    exact ⟨fun h => by rw [(hend h).1] at hbr; simp at hbr, fun h => ⟨h.1, h.2.1⟩⟩
  rw [if_neg hbr]
  have hbr' : br = false := by simpa using hbr
  obtain ⟨q1, q2, q3⟩ := e4 hbr'
  by_cases hcell : p.cells < g.length - 1
  · have hkc : k = p.cells := by omega
    have hget : (rfRing p.rows g.length)[p.cells]? = some ((p.rows + 1 + p.cells) % g.length) := by
      rw [rfRing_eq hr, List.getElem?_map, List.getElem?_range' hcell]
      simp
    rw [hget]
    simp only
    unfold rfPart
    by_cases hst : p.step = .before
    · rw [if_pos hst]
      refine ⟨_, called, k, 0, _, rfl, NextRel.refl _ _ _, hplain, hs00, ?_⟩
      rw [hcalled]
      exact ⟨fun h => ⟨h.1, h.2, hst⟩, fun h => ⟨h.1, h.2.1⟩⟩
    rw [if_neg hst, ringIdx (by omega)]
    simp only
    have hpos : p.rows + 1 + p.cells = p.rows + k + 1 := by omega
    by_cases hC : exceeds C C_EPS (s.1 + d (ringAt g (p.rows + 1 + p.cells))) = true
    · rw [if_pos hC]
      refine ⟨_, called, k, 0, _, rfl, NextRel.refl _ _ _, hplain, hs00, ?_⟩
      rw [hcalled]
      constructor
      · rintro ⟨h1, h3⟩
        -- the first customer fits
        exfalso
        have hk0 : k = 0 := by omega
        rw [q1, hk0, hcum] at hC
        have hcall := rfCalls_ok (rest := rest) h2 hs hr
        unfold rfCalls at hcall
        rw [rfRing_eq hr, List.head?_map, List.head?_range', if_neg (by omega)] at hcall
        simp only [Option.map_some] at hcall
        rw [ringIdx (by omega)] at hcall
        simp only at hcall
        rw [h3, Nat.add_zero] at hC
        rw [hC] at hcall
        simp at hcall
      · exact fun h => ⟨h.1, h.2.1⟩
    rw [if_neg hC]
    have hgrow : rfGrow popt s.2.1 (ringAt g (p.rows + 1 + p.cells)) = .ok (grown popt (seg g p.rows (k + 1))) := by
      unfold rfGrow
      have hne : s.2.1 ≠ [] := by
        rw [q2]
        by_cases hl0 : k = 0
        · rw [hl0]; simp [seg_zero, grown]
        · obtain ⟨w, _, h2⟩ := grown_route hp (seg g p.rows k) (seg_nodup hg (by omega))
            (fun e => by have := congrArg List.length e; simp at this; omega)
          rw [h2]; simp [wrap]
      rw [if_neg hne, seg_succ, grown_concat, q2, hpos]
    rw [hgrow]
    simp only
    by_cases hL : exceeds L S_EPS (grown popt (seg g p.rows (k + 1))).2 = true ∨ p.step = .costed
    · rw [if_pos hL]
      refine ⟨_, true, k, 0, _, rfl, NextRel.refl _ _ _, hplain, hs00, ?_⟩
      simp only [Bool.true_eq_false, false_iff]
      exact fun h => hst h.2.2
    rw [if_neg hL]
    have hok' : SegmentOk d C L popt (seg g p.rows (k + 1)) := by
      refine ⟨?_, (exceeds_iff L S_EPS _).1 (by simpa using fun h => hL (.inl h))⟩
      rw [seg_succ, ← hpos]
      refine (exceeds_cum _ _).1 ?_
      rw [← q1]
      simpa using hC
    have hall : ∀ l, 1 ≤ l → l ≤ k + 1 → SegmentOk d C L popt (seg g p.rows l) := by
      intro l l1 l2
      by_cases hl : l = k + 1
      · rw [hl]; exact hok'
      · exact q3 l l1 (by omega)
    have hinj : ∀ l, 1 ≤ l → l ≤ k → (p.rows + l) % g.length ≠ (p.rows + 1 + p.cells) % g.length := by
      intro l l1 l2 he
      have := add_mod_inj (u := p.rows) (k := l) (k' := k + 1) (n := g.length) (by omega) (by omega)
        (by rw [he]; congr 1)
      omega
    have hunset : s.2.2.next p.rows ((p.rows + 1 + p.cells) % g.length) = 0 := by
      rw [(e2 p.rows _ (fun ⟨l, l1, l2, _, l4⟩ => hinj l (by omega) l2 l4.symm)).2, r4 _ _ le_rfl]
    refine ⟨_, true, k + 1, (p.rows + 1 + p.cells) % g.length,
      s.2.2.put p.rows ((p.rows + 1 + p.cells) % g.length)
        (((grown popt (seg g p.rows (k + 1))).2 + const : ℚ) : WithTop ℚ) ((p.rows + 1 + p.cells) % g.length),
      rfl, ⟨rfl, ?_⟩, ?_, hs00, ?_⟩
    · intro a b
      simp only [RfTab.put]
      by_cases hab : a = p.rows ∧ b = (p.rows + 1 + p.cells) % g.length
      · rw [if_pos hab, hab.1, hab.2]
        exact .inr ⟨rfl, rfl, hunset⟩
      · rw [if_neg hab]; exact .inl rfl
    · refine orig_cut hring hr ?_ ?_ ?_ ?_
      · intro x b hx
        have h1 := e2 x b (fun ⟨_, _, _, h, _⟩ => by omega)
        unfold RfOrig
        simp only [RfTab.put]
        rw [if_neg (by omega), if_neg (by omega), h1.1, h1.2]
        exact r5 x b hx
      · intro x b hx
        simp only [RfTab.put]
        rw [if_neg (by omega), (e2 x b (fun ⟨_, _, _, h, _⟩ => by omega)).1]
        exact r2 x b (by omega)
      · intro l l1 l2 l3
        simp only [RfTab.put]
        by_cases hl : l = k + 1
        · have hp' : (p.rows + l) % g.length = (p.rows + 1 + p.cells) % g.length := by congr 1; omega
          rw [hp', hl, segE_ok (by omega) hall]
          simp
        · have hn := hinj l l1 (by omega)
          rw [if_neg (fun h => hn h.2), if_neg (fun h => hn h.2)]
          exact e3 l (by omega) (by omega)
      · intro b hb
        simp only [RfTab.put]
        rw [if_neg (fun h => hb ⟨k + 1, by omega, le_rfl, by omega, by rw [h.2, hpos]; rfl⟩),
          (e2 p.rows b (fun ⟨l, l1, l2, _, l4⟩ => hb ⟨l, by omega, by omega, by omega, l4⟩)).1]
        exact r2 _ _ le_rfl
    · simp only [Bool.true_eq_false, false_iff]
      exact fun h => hst h.2.2
  · have hget : (rfRing p.rows g.length)[p.cells]? = none := by
      rw [rfRing_eq hr, List.getElem?_eq_none_iff]
      simp only [List.length_map, List.length_range']
      omega
    rw [hget]
    refine ⟨_, called, k, 0, _, rfl, NextRel.refl _ _ _, hplain, hs00, ?_⟩
    rw [hcalled]
    exact ⟨fun h => absurd (hend h).2 hcell, fun h => ⟨h.1, h.2.1⟩⟩

/-! ## The routes -/

theorem rfRoute_keep {rest : List ℕ} {i l : ℕ} (h1 : 1 ≤ l) (hl : l ≤ g.length) : ∀ (m k fuel : ℕ), k + m = l →
    m + 1 ≤ fuel → rfRoute rfAppend (g ++ rest) g.length ((i + l) % g.length) fuel ((i + k) % g.length)
      (wrap (seg g i k)) = .ok (some (wrap (seg g i l))) := by
  have hlen : ∀ k, (wrap (seg g i k)).length = k + 2 := by
    intro k; simp [wrap]
  intro m
  induction m with
  | zero =>
    intro k fuel hk hf
    obtain ⟨f, rfl⟩ : ∃ f, fuel = f + 1 := ⟨fuel - 1, by omega⟩
    have : k = l := by omega
    subst this
    unfold rfRoute
    rw [if_neg (fun hh => by
      rcases hh with hh | hh
      · rw [hlen] at hh; omega
      · exact hh rfl)]
  | succ m ih =>
    intro k fuel hk hf
    obtain ⟨f, rfl⟩ : ∃ f, fuel = f + 1 := ⟨fuel - 1, by omega⟩
    unfold rfRoute
    have hcond : (wrap (seg g i k)).length = 2 ∨ (i + k) % g.length ≠ (i + l) % g.length := by
      by_cases hk0 : k = 0
      · left; rw [hlen, hk0]
      · right
        intro he
        by_cases hlg : l = g.length
        · have := add_mod_inj (u := i) (k := k) (k' := 0) (n := g.length) (by omega) (by omega)
            (by rw [he, hlg, Nat.add_mod_right, Nat.add_zero])
          omega
        · have := add_mod_inj (u := i) (k := k) (k' := l) (n := g.length) (by omega) (by omega) he
          omega
    rw [if_pos hcond]
    have hstep : (if (i + k) % g.length + 1 = g.length then 0 else (i + k) % g.length + 1) =
        (i + (k + 1)) % g.length := by
      have hm := Nat.mod_lt (i + k) (by omega : 0 < g.length)
      rw [← Nat.add_assoc]
      by_cases h1g : g.length = 1
      · rw [h1g, Nat.mod_one, Nat.mod_one]; rfl
      rw [Nat.add_mod (i + k) 1, Nat.mod_eq_of_lt (by omega : 1 < g.length)]
      generalize (i + k) % g.length = x at hm
      split
      · rename_i he; rw [he, Nat.mod_self]
      · rw [Nat.mod_eq_of_lt (by omega)]
    simp only [hstep]
    rw [ringIdx (by omega)]
    have hgrow : rfGrow rfAppend (wrap (seg g i k)) (ringAt g (i + (k + 1))) = .ok (wrap (seg g i (k + 1)), 0) := by
      unfold rfGrow rfAppend
      rw [if_neg (by simp [wrap]), seg_succ]
      congr 2
      unfold wrap
      rw [← List.cons_append, List.dropLast_concat]
      simp only [List.cons_append, List.append_assoc]
      rfl
    simp only [hgrow]
    exact ih (k + 1) f (by omega) (by omega)

theorem rfWalk_keep {rest : List ℕ} {b : ℕ} {next : ℕ → ℕ → ℕ} : ∀ (ls : List ℕ) (u : ℕ),
    u < g.length → RfFollows g.length next b u ls → (∀ l ∈ ls, 1 ≤ l ∧ l ≤ g.length) →
      ∀ fuel sol, ls.length ≤ fuel → rfWalk rfAppend rfAsIs (g ++ rest) g.length b next fuel u sol =
        .ok (some (sol ++ (segs g u ls).flatMap fun r => r ++ [0]))
  | [], _, _, h, _ => h.elim
  | l :: t, u, hu, h, hl => by
    obtain ⟨h1, h2, h3⟩ := h
    have hll := hl l List.mem_cons_self
    have hpos : (u + l) % g.length = next u b := by rw [h2]; exact (ring_pos hu h1).2.2
    have hroute := rfRoute_keep (rest := rest) (i := u) hll.1 hll.2 l 0 (g.length + 1) (by omega) (by omega)
    rw [hpos, show (u + 0) % g.length = u from Nat.mod_eq_of_lt hu] at hroute
    have hg0 : wrap (seg g u 0) = [0, 0] := rfl
    rw [hg0] at hroute
    intro fuel sol hf
    obtain ⟨f, rfl⟩ : ∃ f, fuel = f + 1 := ⟨fuel - 1, by simp at hf; omega⟩
    rw [rfWalk]
    simp only
    rw [hroute]
    simp only [rfAsIs]
    have htail : (wrap (seg g u l)).tail = seg g u l ++ [0] := rfl
    rw [htail, segs, List.flatMap_cons]
    rcases h3 with ⟨h3, rfl⟩ | ⟨h3, h4⟩
    · rw [if_pos h3, segs]; simp
    · rw [if_neg h3]
      have hseg : segs g (u + l) t = segs g (next u b) t := by
        rw [h2]
        unfold ringLen
        split
        · congr 1; omega
        · rw [show u + (next u b + g.length - u) = next u b + g.length by omega, segs_per]
      have := rfWalk_keep (rest := rest) t (next u b) h1 h4 (fun x hx => hl x (List.mem_cons_of_mem _ hx)) f
        (sol ++ (seg g u l ++ [0])) (by simp at hf; omega)
      rw [hseg]
      rw [this]
      simp

theorem rfArgmin_top (f : ℕ → WithTop ℚ) (N : ℕ) (h : ∀ i < N, f i = ⊤) : rfArgmin N f = 0 := by
  unfold rfArgmin
  have : ∀ l : List ℕ, (∀ i ∈ l, f i = ⊤) → l.foldl (fun b i => if f i < f b then i else b) 0 = 0 := by
    intro l
    induction l with
    | nil => intro _; rfl
    | cons a l ih =>
      intro hl
      rw [List.foldl_cons, if_neg (by rw [hl a List.mem_cons_self]; exact not_lt.2 le_top)]
      exact ih fun i hi => hl i (List.mem_cons_of_mem _ hi)
  refine this _ fun i hi => ?_
  unfold pyRange at hi
  rw [List.mem_range'_1] at hi
  exact h i (by omega)

end Verif
