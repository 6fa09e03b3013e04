import Verif.Spec.Rfcs
import Verif.Lemmas.Rfcs
import Verif.Lemmas.Solves
import Verif.Lemmas.Sweep
import Mathlib.Data.List.Rotate
import Mathlib.Data.List.GetD
import Mathlib.Data.Nat.ModEq

/-! # The tables and the routes of the partition of a giant tour -/

namespace Verif

open Spec

/-- The node at a position of the closed tour. -/
def ringAt (g : List ℕ) (k : ℕ) : ℕ := g.getD (k % g.length) 0

/-- The `l` nodes after the position `i`. -/
def seg (g : List ℕ) (i l : ℕ) : List ℕ := (List.range' (i + 1) l).map (ringAt g)

variable {g : List ℕ}

theorem seg_zero (i : ℕ) : seg g i 0 = [] := rfl

theorem seg_succ (i l : ℕ) : seg g i (l + 1) = seg g i l ++ [ringAt g (i + l + 1)] := by
  unfold seg
  rw [List.range'_concat, List.map_append]
  simp only [List.map_cons, List.map_nil, one_mul]
  rw [show i + 1 + l = i + l + 1 by omega]

theorem seg_add (i l m : ℕ) : seg g i (l + m) = seg g i l ++ seg g (i + l) m := by
  unfold seg
  rw [← List.map_append, show i + l + 1 = i + 1 + l by omega, List.range'_append_1]

@[simp] theorem seg_length (i l : ℕ) : (seg g i l).length = l := by simp [seg]

theorem ringAt_per (k : ℕ) : ringAt g (k + g.length) = ringAt g k := by
  unfold ringAt; rw [Nat.add_mod_right]

theorem seg_per (i : ℕ) : ∀ l, seg g (i + g.length) l = seg g i l
  | 0 => rfl
  | l + 1 => by
    rw [seg_succ, seg_succ, seg_per i l, show i + g.length + l + 1 = i + l + 1 + g.length by omega, ringAt_per]

theorem seg_mod (i l : ℕ) : seg g (i % g.length) l = seg g i l := by
  conv_rhs => rw [← Nat.mod_add_div i g.length]
  generalize i / g.length = q
  induction q with
  | zero => simp
  | succ q ih => rw [Nat.mul_succ, ← Nat.add_assoc, seg_per]; exact ih

theorem seg_full (i : ℕ) : seg g i g.length = g.rotate (i + 1) := by
  apply List.ext_getElem
  · simp
  · intro k h1 h2
    have hk : k < g.length := by simpa using h1
    rw [List.getElem_rotate]
    simp only [seg, ringAt, List.getElem_map, List.getElem_range']
    have hm : (i + 1 + 1 * k) % g.length = (k + (i + 1)) % g.length := by congr 1; omega
    rw [hm, List.getD_eq_getElem _ _ (Nat.mod_lt _ (by omega))]

theorem seg_nodup (hg : (0 :: g).Nodup) {i l : ℕ} (hl : l ≤ g.length) : (0 :: seg g i l).Nodup := by
  have hf : seg g i g.length = seg g i l ++ seg g (i + l) (g.length - l) := by
    rw [← seg_add]; congr 1; omega
  have hp : (seg g i g.length).Perm g := by rw [seg_full]; exact List.rotate_perm g _
  have : (0 :: seg g i g.length).Nodup := (hp.cons 0).nodup_iff.2 hg
  rw [hf] at this
  exact this.sublist ((List.sublist_append_left _ _).cons_cons 0)

/-! ## Grown routes -/

variable {popt : Router} {D : ℕ → ℕ → ℚ}

theorem grown_concat (u : List ℕ) (v : ℕ) :
    grown popt (u ++ [v]) = popt ((grown popt u).1.dropLast ++ [v]) := by
  unfold grown; rw [List.foldl_append]; rfl

theorem grown_route (hp : TspRoutine D popt) (u : List ℕ) (h : (0 :: u).Nodup) (hne : u ≠ []) :
    ∃ w, w.Perm u ∧ grown popt u = (wrap w, cost D (wrap w)) := by
  induction u using List.reverseRecOn with
  | nil => exact absurd rfl hne
  | append_singleton u v ih =>
    rw [grown_concat]
    have key : ∃ w, w.Perm u ∧ (grown popt u).1.dropLast = 0 :: w := by
      by_cases hu : u = []
      · subst hu
        exact ⟨[], List.Perm.refl _, rfl⟩
      · obtain ⟨w, h1, h2⟩ := ih (h.sublist ((List.sublist_append_left _ _).cons_cons 0)) hu
        refine ⟨w, h1, ?_⟩
        rw [h2]
        exact List.dropLast_concat (l₁ := 0 :: w)
    obtain ⟨w, h1, h2⟩ := key
    rw [h2]
    have hpm : (w ++ [v]).Perm (u ++ [v]) := h1.append_right [v]
    obtain ⟨x, hx1, hx2⟩ := hp (w ++ [v]) (by simp) ((hpm.cons 0).nodup_iff.2 h)
    exact ⟨x, hx1.trans hpm, hx2⟩

theorem grown_mono (hm : GrowsLonger popt) {u v : List ℕ} (h : (0 :: (u ++ v)).Nodup) :
    (grown popt u).2 ≤ (grown popt (u ++ v)).2 := by
  induction v using List.reverseRecOn with
  | nil => simp
  | append_singleton v x ih =>
    rw [← List.append_assoc] at h ⊢
    exact le_trans (ih (h.sublist ((List.sublist_append_left _ _).cons_cons 0))) (hm _ _ h)

theorem grown_nonneg (hm : GrowsLonger popt) {u : List ℕ} (h : (0 :: u).Nodup) : 0 ≤ (grown popt u).2 :=
  grown_mono (u := []) hm h

/-! ## The cost table -/

variable {d : ℕ → ℚ} {C L : Option ℚ} {const : ℚ}

open Classical in
/-- The cost of serving the `l` nodes after the position `i` by one route. -/
noncomputable def segE (g : List ℕ) (d : ℕ → ℚ) (C L : Option ℚ) (const : ℚ) (popt : Router) (i l : ℕ) :
    WithTop ℚ :=
  if l < g.length ∧ ∀ k, 1 ≤ k → k ≤ l → SegmentOk d C L popt (seg g i k) then
    (((grown popt (seg g i l)).2 + const : ℚ) : WithTop ℚ)
  else ⊤

theorem segE_ok {i l : ℕ} (hl : l < g.length) (h : ∀ k, 1 ≤ k → k ≤ l → SegmentOk d C L popt (seg g i k)) :
    segE g d C L const popt i l = (((grown popt (seg g i l)).2 + const : ℚ) : WithTop ℚ) := by
  unfold segE; rw [if_pos ⟨hl, h⟩]

theorem segE_bad {i k l : ℕ} (h1 : 1 ≤ k) (h2 : k ≤ l) (h : ¬ SegmentOk d C L popt (seg g i k)) :
    segE g d C L const popt i l = ⊤ := by
  unfold segE; rw [if_neg (fun hh => h (hh.2 k h1 h2))]

theorem segE_fin {i l : ℕ} (h : segE g d C L const popt i l < ⊤) :
    l < g.length ∧ (∀ k, 1 ≤ k → k ≤ l → SegmentOk d C L popt (seg g i k)) ∧
      segE g d C L const popt i l = (((grown popt (seg g i l)).2 + const : ℚ) : WithTop ℚ) := by
  by_cases hc : l < g.length ∧ ∀ k, 1 ≤ k → k ≤ l → SegmentOk d C L popt (seg g i k)
  · exact ⟨hc.1, hc.2, segE_ok hc.1 hc.2⟩
  · unfold segE at h
    rw [if_neg hc] at h
    exact absurd h (lt_irrefl _)

theorem segE_ring (hg : (0 :: g).Nodup) (h0 : 0 < g.length) (hm : GrowsLonger popt) (hc : 0 ≤ const) :
    RingCost g.length (segE g d C L const popt) := by
  refine ⟨h0, ?_, ?_, ?_, ?_⟩
  · intro i l
    by_cases hf : segE g d C L const popt i l = ⊤
    · rw [hf]; exact le_top
    obtain ⟨h1, _, h3⟩ := segE_fin (lt_top_iff_ne_top.2 hf)
    rw [h3]
    have := grown_nonneg hm (seg_nodup hg (i := i) h1.le)
    exact_mod_cast (by linarith : (0 : ℚ) ≤ (grown popt (seg g i l)).2 + const)
  · intro i l l' h1 h2
    by_cases hf : segE g d C L const popt i l' = ⊤
    · rw [hf]; exact le_top
    obtain ⟨h3, h4, h5⟩ := segE_fin (lt_top_iff_ne_top.2 hf)
    rw [h5, segE_ok (by omega) fun k hk hk' => h4 k hk (by omega)]
    have he : seg g i l' = seg g i l ++ seg g (i + l) (l' - l) := by
      rw [← seg_add]; congr 1; omega
    have hnd := seg_nodup hg (i := i) h3.le
    rw [he] at hnd
    have := grown_mono hm hnd
    rw [← he] at this
    exact_mod_cast (by linarith : (grown popt (seg g i l)).2 + const ≤ (grown popt (seg g i l')).2 + const)
  · intro i l
    unfold segE
    rw [show seg g (i + g.length) = seg g i from funext (seg_per i)]
  · intro i l hl
    unfold segE
    rw [if_neg (fun hh => by omega)]

/-! ## Building the table -/

/-- The demand as it is counted. -/
def cumDemand (C : Option ℚ) (d : ℕ → ℚ) (u : List ℕ) : ℚ := if truthy C then demand d u else 0

theorem exceeds_cum (u : List ℕ) (v : ℕ) :
    exceeds C C_EPS (cumDemand C d u + d v) = false ↔ Within C C_EPS (demand d (u ++ [v])) := by
  unfold cumDemand
  by_cases hC : truthy C = true
  · rw [if_pos hC, exceeds_iff, demand_append]
    simp [demand]
  · rw [if_neg hC]
    constructor
    · intro _
      cases C with
      | none => intro c hc; simp at hc
      | some c =>
        simp [truthy] at hC
        intro c' hc' h0
        simp at hc'
        exact absurd (hc' ▸ hC) h0
    · intro _
      cases C with
      | none => rfl
      | some c =>
        simp [truthy] at hC
        simp [exceeds, hC]

theorem ringIdx {rest : List ℕ} (h : 0 < g.length) (k : ℕ) : idx (g ++ rest) (k % g.length) = .ok (ringAt g k) := by
  have hk := Nat.mod_lt k h
  rw [idx_lt (by rw [List.length_append]; omega)]
  unfold ringAt
  rw [List.getElem_append_left hk, List.getD_eq_getElem _ _ hk]

theorem rfRing_eq {u n : ℕ} (hu : u < n) :
    rfRing u n = (List.range' (u + 1) (n - 1)).map (· % n) := by
  unfold rfRing pyRange
  have hsplit : List.range' (u + 1) (n - 1) = List.range' (u + 1) (n - (u + 1)) ++ List.range' n u := by
    rw [show List.range' n u = List.range' (u + 1 + (n - (u + 1))) u by congr 1; omega, List.range'_append_1]
    congr 1; omega
  rw [hsplit, List.map_append]
  congr 1
  · conv_lhs => rw [← List.map_id (List.range' (u + 1) (n - (u + 1)))]
    refine List.map_congr_left fun x hx => ?_
    rw [List.mem_range'_1] at hx
    rw [Nat.mod_eq_of_lt (by omega)]; rfl
  · rw [Nat.sub_zero, List.range'_eq_map_range, List.range'_eq_map_range, List.map_map]
    refine List.map_congr_left fun x hx => ?_
    rw [List.mem_range] at hx
    simp only [Function.comp, Nat.add_mod_left, Nat.zero_add]
    rw [Nat.mod_eq_of_lt (by omega)]

theorem add_mod_inj {u k k' n : ℕ} (hk : k < n) (hk' : k' < n) (h : (u + k) % n = (u + k') % n) : k = k' :=
  Nat.ModEq.eq_of_lt_of_lt (Nat.ModEq.add_left_cancel' u h) hk hk'

theorem rfRow_loop {rest : List ℕ} (hp : TspRoutine D popt) (hg : (0 :: g).Nodup) {u : ℕ} (hu : u < g.length) :
    ∀ (m l : ℕ) (t : RfTab), l + m ≤ g.length - 1 →
    (∀ k, 1 ≤ k → k ≤ l → SegmentOk d C L popt (seg g u k)) →
    (∀ k, l < k → k < g.length → t.dist u ((u + k) % g.length) = ⊤) →
    ∃ s b, forBreak ((List.range' (u + 1 + l) m).map (· % g.length))
        ((cumDemand C d (seg g u l), (grown popt (seg g u l)).1, t) : RfState)
        (rfCell d C L const popt (g ++ rest) u) = .ok (s, b) ∧
      (∀ a b, (¬ ∃ k, l < k ∧ k ≤ l + m ∧ a = u ∧ b = (u + k) % g.length) →
        s.2.2.dist a b = t.dist a b ∧ s.2.2.next a b = t.next a b) ∧
      (∀ k, l < k → k ≤ l + m → s.2.2.dist u ((u + k) % g.length) = segE g d C L const popt u k ∧
        (segE g d C L const popt u k < ⊤ → s.2.2.next u ((u + k) % g.length) = (u + k) % g.length)) ∧
      (b = false → s.1 = cumDemand C d (seg g u (l + m)) ∧ s.2.1 = (grown popt (seg g u (l + m))).1 ∧
        ∀ k, 1 ≤ k → k ≤ l + m → SegmentOk d C L popt (seg g u k)) ∧
      (b = true → ∃ k, 1 ≤ k ∧ k ≤ l + m ∧ ¬ SegmentOk d C L popt (seg g u k)) := by
  intro m
  induction m with
  | zero =>
    intro l t hl hok _
    exact ⟨_, false, rfl, fun _ _ _ => ⟨rfl, rfl⟩, fun k h1 h2 => by omega, fun _ => ⟨rfl, rfl, hok⟩,
      fun h => by simp at h⟩
  | succ m ih =>
    intro l t hlm hok htop
    have h0 : 0 < g.length := by omega
    have hbad : ¬ SegmentOk d C L popt (seg g u (l + 1)) → ∀ k, l < k → k ≤ l + (m + 1) →
        t.dist u ((u + k) % g.length) = segE g d C L const popt u k ∧
        (segE g d C L const popt u k < ⊤ → t.next u ((u + k) % g.length) = (u + k) % g.length) := by
      intro hb k h1 h2
      have := segE_bad (const := const) (by omega : 1 ≤ l + 1) (by omega : l + 1 ≤ k) hb
      rw [htop k h1 (by omega), this]
      exact ⟨rfl, fun h => absurd h (lt_irrefl _)⟩
    rw [List.range'_succ, List.map_cons]
    have hidx : idx (g ++ rest) ((u + 1 + l) % g.length) = .ok (ringAt g (u + l + 1)) := by
      rw [ringIdx h0]; congr 2; omega
    have hgrow : rfGrow popt (grown popt (seg g u l)).1 (ringAt g (u + l + 1)) =
        .ok (grown popt (seg g u (l + 1))) := by
      unfold rfGrow
      have hne : (grown popt (seg g u l)).1 ≠ [] := by
        by_cases hl0 : l = 0
        · subst hl0; simp [seg_zero, grown]
        · obtain ⟨w, _, h2⟩ := grown_route hp (seg g u l) (seg_nodup hg (by omega))
            (fun e => by have := congrArg List.length e; simp at this; omega)
          rw [h2]; simp [wrap]
      rw [if_neg hne, seg_succ, grown_concat]
    have hcell : ∀ s0 : RfState, s0 = (cumDemand C d (seg g u l), (grown popt (seg g u l)).1, t) →
        rfCell d C L const popt (g ++ rest) u ((u + 1 + l) % g.length) s0 =
        if exceeds C C_EPS (cumDemand C d (seg g u l) + d (ringAt g (u + l + 1))) then .ok (s0, true)
        else if exceeds L S_EPS (grown popt (seg g u (l + 1))).2 then
          .ok ((cumDemand C d (seg g u l), (grown popt (seg g u (l + 1))).1, t), true)
        else .ok ((if truthy C then cumDemand C d (seg g u l) + d (ringAt g (u + l + 1)) else
            cumDemand C d (seg g u l), (grown popt (seg g u (l + 1))).1,
          t.put u ((u + 1 + l) % g.length)
            (((grown popt (seg g u (l + 1))).2 + const : ℚ) : WithTop ℚ) ((u + 1 + l) % g.length)), false) := by
      rintro s0 rfl
      unfold rfCell
      rw [hidx]
      simp only [hgrow]
    by_cases hC : exceeds C C_EPS (cumDemand C d (seg g u l) + d (ringAt g (u + l + 1))) = true
    · have hno : ¬ SegmentOk d C L popt (seg g u (l + 1)) := by
        intro hh
        have := (exceeds_cum (C := C) (d := d) (seg g u l) (ringAt g (u + l + 1))).2 (by
          rw [← seg_succ]; exact hh.1)
        rw [this] at hC
        exact absurd hC (by simp)
      refine ⟨(cumDemand C d (seg g u l), (grown popt (seg g u l)).1, t), true, ?_,
        fun _ _ _ => ⟨rfl, rfl⟩, hbad hno, fun h => by simp at h, fun _ => ⟨l + 1, by omega, by omega, hno⟩⟩
      rw [forBreak, hcell _ rfl, if_pos hC]
    by_cases hL : exceeds L S_EPS (grown popt (seg g u (l + 1))).2 = true
    · have hno : ¬ SegmentOk d C L popt (seg g u (l + 1)) := by
        intro hh
        have := (exceeds_iff L S_EPS (grown popt (seg g u (l + 1))).2).2 hh.2
        rw [this] at hL
        exact absurd hL (by simp)
      refine ⟨(cumDemand C d (seg g u l), (grown popt (seg g u (l + 1))).1, t), true, ?_,
        fun _ _ _ => ⟨rfl, rfl⟩, hbad hno, fun h => by simp at h, fun _ => ⟨l + 1, by omega, by omega, hno⟩⟩
      rw [forBreak, hcell _ rfl, if_neg hC, if_pos hL]
    have hok' : SegmentOk d C L popt (seg g u (l + 1)) := by
      refine ⟨?_, (exceeds_iff L S_EPS _).1 (by simpa using hL)⟩
      rw [seg_succ]
      exact (exceeds_cum _ _).1 (by simpa using hC)
    have hcum : (if truthy C then cumDemand C d (seg g u l) + d (ringAt g (u + l + 1)) else
        cumDemand C d (seg g u l)) = cumDemand C d (seg g u (l + 1)) := by
      unfold cumDemand
      by_cases hC : truthy C = true
      · simp only [if_pos hC]; rw [seg_succ, demand_append]; simp [demand]
      · simp only [if_neg hC]
    have hinj : ∀ k, l + 1 < k → k < g.length → (u + k) % g.length ≠ (u + 1 + l) % g.length := by
      intro k h1 h2 he
      have := add_mod_inj (u := u) (k := k) (k' := l + 1) h2 (by omega) (by rw [he]; congr 1; omega)
      omega
    obtain ⟨s, b, e1, e2, e3, e4, e5⟩ := ih (l + 1) (t.put u ((u + 1 + l) % g.length)
        (((grown popt (seg g u (l + 1))).2 + const : ℚ) : WithTop ℚ) ((u + 1 + l) % g.length)) (by omega)
      (fun k h1 h2 => by
        by_cases hk : k = l + 1
        · rw [hk]; exact hok'
        · exact hok k h1 (by omega))
      (fun k h1 h2 => by
        simp only [RfTab.put]
        rw [if_neg (fun hh => hinj k h1 h2 hh.2)]
        exact htop k (by omega) h2)
    refine ⟨s, b, ?_, ?_, ?_, ?_, ?_⟩
    · rw [forBreak, hcell _ rfl, if_neg hC, if_neg hL, hcum]
      simp only
      rw [← e1]
      rfl
    · intro a b hab
      have h1 := e2 a b (fun ⟨k, hk⟩ => hab ⟨k, by omega, by omega, hk.2.2⟩)
      rw [h1.1, h1.2]
      simp only [RfTab.put]
      have hn : ¬ (a = u ∧ b = (u + 1 + l) % g.length) := by
        intro hh
        exact hab ⟨l + 1, by omega, by omega, hh.1, by rw [hh.2]; congr 1; omega⟩
      rw [if_neg hn, if_neg hn]
      exact ⟨rfl, rfl⟩
    · intro k h1 h2
      by_cases hk : k = l + 1
      · subst hk
        have h3 := e2 u ((u + (l + 1)) % g.length) (fun ⟨k, hk1, hk2, _, hk3⟩ => hinj k hk1 (by omega) (by
          rw [← hk3]; congr 1; omega))
        have hpos : (u + (l + 1)) % g.length = (u + 1 + l) % g.length := by congr 1; omega
        rw [h3.1, h3.2, segE_ok (by omega) (fun k' h1' h2' => by
          by_cases hk : k' = l + 1
          · rw [hk]; exact hok'
          · exact hok k' h1' (by omega))]
        rw [hpos]
        simp [RfTab.put]
      · exact e3 k (by omega) (by omega)
    · rw [show l + (m + 1) = l + 1 + m by omega]; exact e4
    · rw [show l + (m + 1) = l + 1 + m by omega]; exact e5

theorem rfRow_ok {rest : List ℕ} (hp : TspRoutine D popt) (hg : (0 :: g).Nodup) {u : ℕ} (hu : u < g.length)
    {t : RfTab} (ht : ∀ b, t.dist u b = ⊤) :
    ∃ t', rfRow d C L const popt (g ++ rest) g.length u t = .ok t' ∧
      (∀ a b, a ≠ u → t'.dist a b = t.dist a b ∧ t'.next a b = t.next a b) ∧
      (∀ b, RfOrig g.length (segE g d C L const popt) t' u b) ∧ t'.next u u = t.next u u := by
  obtain ⟨s, br, e1, e2, e3, -, -⟩ := rfRow_loop (d := d) (C := C) (L := L) (const := const) (rest := rest) hp hg hu
    (g.length - 1) 0 t (by omega) (fun k h1 h2 => by omega) (fun k _ _ => ht _)
  have hcum : cumDemand C d (seg g u 0) = 0 := by unfold cumDemand; rw [seg_zero]; simp [demand]
  rw [hcum] at e1
  have hdiag : ∀ b, ¬ (b < g.length ∧ b ≠ u) → ¬ ∃ k, 0 < k ∧ k ≤ 0 + (g.length - 1) ∧ u = u ∧ b = (u + k) % g.length := by
    rintro b hb ⟨k, h1, h2, _, h3⟩
    have hlt : b < g.length := by rw [h3]; exact Nat.mod_lt _ (by omega)
    have hbu : b = u := by omega
    rw [hbu] at h3
    have := add_mod_inj (u := u) (k := 0) (k' := k) (n := g.length) (by omega) (by omega) (by
      rw [← h3, Nat.add_zero, Nat.mod_eq_of_lt hu])
    omega
  refine ⟨s.2.2, ?_, ?_, ?_, (e2 u u (hdiag u (by omega))).2⟩
  · unfold rfRow
    rw [rfRing_eq hu]
    have : (grown popt (seg g u 0)).1 = [0, 0] := rfl
    rw [this] at e1
    rw [Nat.add_zero] at e1
    rw [e1]
  · intro a b hab
    exact e2 a b (fun ⟨k, _, _, h, _⟩ => hab h)
  · intro b
    by_cases hb : b < g.length ∧ b ≠ u
    · have hlen : ringLen g.length u b < g.length ∧ 0 < ringLen g.length u b ∧
          (u + ringLen g.length u b) % g.length = b := by
        unfold ringLen
        split
        · refine ⟨by omega, by omega, ?_⟩
          rw [show u + (b - u) = b by omega, Nat.mod_eq_of_lt hb.1]
        · refine ⟨by omega, by omega, ?_⟩
          rw [show u + (b + g.length - u) = b + g.length by omega, Nat.add_mod_right, Nat.mod_eq_of_lt hb.1]
      have := e3 _ hlen.2.1 (by omega)
      rw [hlen.2.2] at this
      unfold RfOrig
      rw [ringTab_len hu hb.1]
      exact this
    · have h1 := e2 u b (hdiag b hb)
      have h2 : ringTab g.length (segE g d C L const popt) u b = ⊤ := by
        by_cases hlt : b < g.length
        · have hbu : b = u := by omega
          subst hbu
          rw [ringTab_len hu hu]
          have hbb : ringLen g.length b b = g.length := by unfold ringLen; rw [if_neg (by omega)]; omega
          rw [hbb]
          unfold segE
          rw [if_neg (fun hh => absurd hh.1 (lt_irrefl _))]
        · unfold ringTab; rw [if_neg (by omega)]
      unfold RfOrig
      rw [h1.1, ht, h2]
      exact ⟨rfl, fun h => absurd h (lt_irrefl _)⟩

theorem rfRows_ok {rest : List ℕ} (hp : TspRoutine D popt) (hg : (0 :: g).Nodup) : ∀ (m a : ℕ) (t : RfTab),
    a + m = g.length → (∀ x b, a ≤ x → t.dist x b = ⊤) →
    (∀ x b, x < a → RfOrig g.length (segE g d C L const popt) t x b) →
    ∃ t', rfRows d C L const popt (g ++ rest) g.length (List.range' a m) t = .ok t' ∧
      ∀ x b, RfOrig g.length (segE g d C L const popt) t' x b := by
  intro m
  induction m with
  | zero =>
    intro a t ha htop horig
    refine ⟨t, rfl, fun x b => ?_⟩
    by_cases hx : x < a
    · exact horig x b hx
    · have : ringTab g.length (segE g d C L const popt) x b = ⊤ := by
        unfold ringTab; rw [if_neg (by omega)]
      unfold RfOrig
      rw [this, htop x b (by omega)]
      exact ⟨rfl, fun h => absurd h (lt_irrefl _)⟩
  | succ m ih =>
    intro a t ha htop horig
    obtain ⟨t', e1, e2, e3, -⟩ := rfRow_ok (d := d) (C := C) (L := L) (const := const) (rest := rest) hp hg
      (u := a) (by omega) (fun b => htop a b le_rfl)
    rw [List.range'_succ]
    unfold rfRows
    rw [e1]
    refine ih (a + 1) t' (by omega) ?_ ?_
    · intro x b hx
      rw [(e2 x b (by omega)).1]
      exact htop x b (by omega)
    · intro x b hx
      by_cases hxa : x = a
      · rw [hxa]; exact e3 b
      · have := horig x b (by omega)
        unfold RfOrig
        rw [(e2 x b hxa).1, (e2 x b hxa).2]
        exact this

/-! ## The routes -/

theorem rfRoute_ok {rest : List ℕ} (hp : TspRoutine D popt) (hg : (0 :: g).Nodup) {i l : ℕ} (h1 : 1 ≤ l)
    (hl : l < g.length) : ∀ (m k fuel : ℕ), k + m = l → m + 1 ≤ fuel →
    rfRoute popt (g ++ rest) g.length ((i + l) % g.length) fuel ((i + k) % g.length) (grown popt (seg g i k)).1 =
      .ok (some (grown popt (seg g i l)).1) := by
  have hlen : ∀ k, 1 ≤ k → k < g.length → (grown popt (seg g i k)).1.length ≠ 2 := by
    intro k hk hkn
    obtain ⟨w, hw, h2⟩ := grown_route hp (seg g i k) (seg_nodup hg (by omega))
      (fun e => by have := congrArg List.length e; simp at this; omega)
    rw [h2]
    have := hw.length_eq
    rw [seg_length] at this
    simp only [wrap, List.length_cons, List.length_append, List.length_nil, this]
    omega
  intro m
  induction m with
  | zero =>
    intro k fuel hk hf
    obtain ⟨f, rfl⟩ : ∃ f, fuel = f + 1 := ⟨fuel - 1, by omega⟩
    have : k = l := by omega
    subst this
    unfold rfRoute
    rw [if_neg (fun hh => by rcases hh with hh | hh; exact hlen k h1 hl hh; exact hh rfl)]
  | succ m ih =>
    intro k fuel hk hf
    obtain ⟨f, rfl⟩ : ∃ f, fuel = f + 1 := ⟨fuel - 1, by omega⟩
    unfold rfRoute
    have hcond : (grown popt (seg g i k)).1.length = 2 ∨ (i + k) % g.length ≠ (i + l) % g.length := by
      by_cases hk0 : k = 0
      · left; subst hk0; rfl
      · right
        intro he
        have := add_mod_inj (u := i) (k := k) (k' := l) (by omega) hl he
        omega
    rw [if_pos hcond]
    have hstep : (if (i + k) % g.length + 1 = g.length then 0 else (i + k) % g.length + 1) =
        (i + (k + 1)) % g.length := by
      have hm := Nat.mod_lt (i + k) (by omega : 0 < g.length)
      rw [← Nat.add_assoc, Nat.add_mod (i + k) 1, Nat.mod_eq_of_lt (by omega : 1 < g.length)]
      generalize (i + k) % g.length = x at hm
      split
      · rename_i he; rw [he, Nat.mod_self]
      · rw [Nat.mod_eq_of_lt (by omega)]
    simp only [hstep]
    rw [ringIdx (by omega)]
    have hgrow : rfGrow popt (grown popt (seg g i k)).1 (ringAt g (i + (k + 1))) =
        .ok (grown popt (seg g i (k + 1))) := by
      unfold rfGrow
      have hne : (grown popt (seg g i k)).1 ≠ [] := by
        by_cases hl0 : k = 0
        · subst hl0; simp [seg_zero, grown]
        · obtain ⟨w, _, h2⟩ := grown_route hp (seg g i k) (seg_nodup hg (by omega))
            (fun e => by have := congrArg List.length e; simp at this; omega)
          rw [h2]; simp [wrap]
      rw [if_neg hne, seg_succ, grown_concat]
      rfl
    simp only [hgrow]
    exact ih (k + 1) f (by omega) (by omega)

/-- The segments of the given lengths. -/
def segs (g : List ℕ) : ℕ → List ℕ → List (List ℕ)
  | _, [] => []
  | i, l :: t => seg g i l :: segs g (i + l) t

theorem segs_per (i : ℕ) : ∀ ls, segs g (i + g.length) ls = segs g i ls := by
  intro ls
  induction ls generalizing i with
  | nil => rfl
  | cons l t ih =>
    unfold segs
    rw [seg_per, show i + g.length + l = i + l + g.length by omega, ih]

theorem segs_flatten : ∀ (ls : List ℕ) (i : ℕ), (segs g i ls).flatten = seg g i ls.sum
  | [], _ => rfl
  | l :: t, i => by rw [segs, List.flatten_cons, segs_flatten t, List.sum_cons, seg_add]

theorem segs_length : ∀ (ls : List ℕ) (i : ℕ), (segs g i ls).length = ls.length
  | [], _ => rfl
  | l :: t, i => by rw [segs, List.length_cons, List.length_cons, segs_length t]

theorem segs_of_flatten : ∀ (us : List (List ℕ)) (i m : ℕ), us.flatten = seg g i m →
    us = segs g i (us.map List.length) ∧ (us.map List.length).sum = m
  | [], i, m, h => by
    have := congrArg List.length h
    simp at this
    simp [segs, this]
  | u :: us, i, m, h => by
    have hle : u.length ≤ m := by
      have := congrArg List.length h
      rw [List.flatten_cons, List.length_append, seg_length] at this
      omega
    rw [show m = u.length + (m - u.length) by omega, seg_add, List.flatten_cons] at h
    obtain ⟨h1, h2⟩ := List.append_inj h (by simp)
    obtain ⟨h3, h4⟩ := segs_of_flatten us _ _ h2
    constructor
    · rw [List.map_cons, segs, ← h1, ← h3]
    · rw [List.map_cons, List.sum_cons, h4]; omega

theorem ringCost_segs : ∀ (ls : List ℕ) (i : ℕ), ringCost (segE g d C L const popt) i ls < ⊤ →
    ringCost (segE g d C L const popt) i ls = ((segmentsCost popt const (segs g i ls) : ℚ) : WithTop ℚ) ∧
      (∀ l ∈ ls, l < g.length) ∧ ((∀ l ∈ ls, 1 ≤ l) → ∀ u ∈ segs g i ls, SegmentOk d C L popt u)
  | [], i, _ => by simp [ringCost, segs, segmentsCost]
  | l :: t, i, h => by
    rw [ringCost] at h
    have ha : segE g d C L const popt i l < ⊤ := by
      rw [lt_top_iff_ne_top]; intro e; rw [e, top_add] at h; exact lt_irrefl _ h
    have hb : ringCost (segE g d C L const popt) (i + l) t < ⊤ := by
      rw [lt_top_iff_ne_top]; intro e; rw [e, add_top] at h; exact lt_irrefl _ h
    obtain ⟨h1, h2, h3⟩ := segE_fin ha
    obtain ⟨h4, h5, h6⟩ := ringCost_segs t (i + l) hb
    refine ⟨?_, ?_, ?_⟩
    · rw [ringCost, h3, h4, segs, ← WithTop.coe_add]
      unfold segmentsCost
      rw [List.map_cons, List.sum_cons]
    · intro x hx
      rcases List.mem_cons.1 hx with rfl | hx
      · exact h1
      · exact h5 x hx
    · intro hpos u hu
      rw [segs] at hu
      rcases List.mem_cons.1 hu with rfl | hu
      · exact h2 l (hpos l List.mem_cons_self) le_rfl
      · exact h6 (fun x hx => hpos x (List.mem_cons_of_mem _ hx)) u hu

theorem segmentOk_prefix (hm : GrowsLonger popt) (hd : ∀ n, 0 ≤ d n) {u v : List ℕ} (hn : (0 :: (u ++ v)).Nodup)
    (h : SegmentOk d C L popt (u ++ v)) : SegmentOk d C L popt u := by
  refine ⟨within_mono h.1 (demand_sublist hd (List.sublist_append_left u v)), within_mono h.2 (grown_mono hm hn)⟩

theorem ringCost_of_segments (hg : (0 :: g).Nodup) (hm : GrowsLonger popt) (hd : ∀ n, 0 ≤ d n) :
    ∀ (ls : List ℕ) (i : ℕ), (∀ l ∈ ls, l < g.length) → (∀ u ∈ segs g i ls, SegmentOk d C L popt u) →
    ringCost (segE g d C L const popt) i ls = ((segmentsCost popt const (segs g i ls) : ℚ) : WithTop ℚ)
  | [], i, _, _ => by simp [ringCost, segs, segmentsCost]
  | l :: t, i, hl, hok => by
    have hll := hl l List.mem_cons_self
    have h1 : ∀ k, 1 ≤ k → k ≤ l → SegmentOk d C L popt (seg g i k) := by
      intro k _ hk
      have he : seg g i l = seg g i k ++ seg g (i + k) (l - k) := by rw [← seg_add]; congr 1; omega
      have hnd := seg_nodup hg (i := i) hll.le
      have := hok (seg g i l) List.mem_cons_self
      rw [he] at this hnd
      exact segmentOk_prefix hm hd hnd this
    rw [ringCost, segE_ok hll h1, ringCost_of_segments hg hm hd t (i + l)
      (fun x hx => hl x (List.mem_cons_of_mem _ hx)) (fun u hu => hok u (List.mem_cons_of_mem _ hu)), segs,
      ← WithTop.coe_add]
    unfold segmentsCost
    rw [List.map_cons, List.sum_cons]

theorem rfWalk_ok {rest : List ℕ} {ropt : Router} (hp : TspRoutine D popt) (hr : RouteImprover D ropt)
    (hg : (0 :: g).Nodup) {b : ℕ} {next : ℕ → ℕ → ℕ} : ∀ (ls : List ℕ) (u : ℕ),
    u < g.length → RfFollows g.length next b u ls → (∀ l ∈ ls, 1 ≤ l ∧ l < g.length) →
    ∃ rs, List.Forall₂ (fun r s => r.Perm s ∧ cost D (wrap r) ≤ (grown popt s).2) rs (segs g u ls) ∧
      ∀ fuel sol, ls.length ≤ fuel → rfWalk popt ropt (g ++ rest) g.length b next fuel u sol =
        .ok (some (sol ++ rs.flatMap fun r => r ++ [0]))
  | [], _, _, h, _ => h.elim
  | l :: t, u, hu, h, hl => by
    obtain ⟨h1, h2, h3⟩ := h
    have hll := hl l List.mem_cons_self
    have hpos : (u + l) % g.length = next u b := by
      rw [h2]
      unfold ringLen
      split
      · rw [show u + (next u b - u) = next u b by omega, Nat.mod_eq_of_lt h1]
      · rw [show u + (next u b + g.length - u) = next u b + g.length by omega, Nat.add_mod_right,
          Nat.mod_eq_of_lt h1]
    have hroute := rfRoute_ok (popt := popt) (rest := rest) hp hg (i := u) hll.1 hll.2 l 0 (g.length + 1) (by omega)
      (by omega)
    rw [hpos, show (u + 0) % g.length = u from Nat.mod_eq_of_lt hu] at hroute
    have hg0 : (grown popt (seg g u 0)).1 = [0, 0] := rfl
    rw [hg0] at hroute
    obtain ⟨w, hw1, hw2⟩ := grown_route hp (seg g u l) (seg_nodup hg hll.2.le)
      (fun e => by have := congrArg List.length e; simp at this; omega)
    have hwne : w ≠ [] := by
      rintro rfl
      have := hw1.length_eq
      simp at this
      omega
    obtain ⟨r, hr1, hr2, hr3⟩ := hr w hwne ((hw1.cons 0).nodup_iff.2 (seg_nodup hg hll.2.le))
    have htail : (ropt (grown popt (seg g u l)).1).1.tail = r ++ [0] := by
      rw [hw2, hr2]; rfl
    have hrel : r.Perm (seg g u l) ∧ cost D (wrap r) ≤ (grown popt (seg g u l)).2 := by
      refine ⟨hr1.trans hw1, ?_⟩
      rw [hw2]; exact hr3
    have hgo : ∀ f sol, rfWalk popt ropt (g ++ rest) g.length b next (f + 1) u sol =
        if next u b = b then .ok (some (sol ++ (r ++ [0])))
        else rfWalk popt ropt (g ++ rest) g.length b next f (next u b) (sol ++ (r ++ [0])) := by
      intro f sol
      rw [rfWalk]
      simp only
      rw [hroute]
      simp only [htail]
    rcases h3 with ⟨h3, rfl⟩ | ⟨h3, h4⟩
    · refine ⟨[r], List.Forall₂.cons hrel List.Forall₂.nil, fun fuel sol hf => ?_⟩
      obtain ⟨f, rfl⟩ : ∃ f, fuel = f + 1 := ⟨fuel - 1, by simp at hf; omega⟩
      rw [hgo, if_pos h3]
      simp
    · obtain ⟨rs, e1, e2⟩ := rfWalk_ok (rest := rest) hp hr hg t (next u b) h1 h4
        (fun x hx => hl x (List.mem_cons_of_mem _ hx))
      refine ⟨r :: rs, ?_, ?_⟩
      · rw [segs]
        refine List.Forall₂.cons hrel ?_
        have : segs g (u + l) t = segs g (next u b) t := by
          rw [h2]
          unfold ringLen
          split
          · congr 1; omega
          · rw [show u + (next u b + g.length - u) = next u b + g.length by omega, segs_per]
        rw [this]; exact e1
      · intro fuel sol hf
        obtain ⟨f, rfl⟩ : ∃ f, fuel = f + 1 := ⟨fuel - 1, by simp at hf; omega⟩
        rw [hgo, if_neg h3, e2 f _ (by simp at hf; omega)]; simp

/-! ## The best start -/

theorem rfArgmin_spec (f : ℕ → WithTop ℚ) : ∀ N, 0 < N → rfArgmin N f < N ∧ ∀ i < N, f (rfArgmin N f) ≤ f i := by
  have key : ∀ (m a b : ℕ), let r := (List.range' a m).foldl (fun b i => if f i < f b then i else b) b
      (r = b ∨ a ≤ r ∧ r < a + m) ∧ f r ≤ f b ∧ ∀ i, a ≤ i → i < a + m → f r ≤ f i := by
    intro m
    induction m with
    | zero => intro a b; exact ⟨.inl rfl, le_rfl, fun i h1 h2 => by omega⟩
    | succ m ih =>
      intro a b
      simp only [List.range'_succ, List.foldl_cons]
      obtain ⟨h1, h2, h3⟩ := ih (a + 1) (if f a < f b then a else b)
      have hle : f (if f a < f b then a else b) ≤ f a ∧ f (if f a < f b then a else b) ≤ f b := by
        by_cases h : f a < f b
        · rw [if_pos h]; exact ⟨le_rfl, h.le⟩
        · rw [if_neg h]; exact ⟨not_lt.1 h, le_rfl⟩
      refine ⟨?_, le_trans h2 hle.2, ?_⟩
      · rcases h1 with h1 | h1
        · rw [h1]
          by_cases h : f a < f b
          · rw [if_pos h]; right; omega
          · rw [if_neg h]; exact .inl rfl
        · right; omega
      · intro i hi1 hi2
        by_cases hia : i = a
        · rw [hia]; exact le_trans h2 hle.1
        · exact h3 i (by omega) (by omega)
  intro N hN
  obtain ⟨h1, _, h3⟩ := key N 0 0
  unfold rfArgmin pyRange
  rw [Nat.sub_zero]
  refine ⟨?_, fun i hi => h3 i (by omega) (by omega)⟩
  rcases h1 with h1 | h1
  · rw [h1]; exact hN
  · omega

theorem ringBest_attained {E : ℕ → ℕ → WithTop ℚ} : ∀ (m i : ℕ), ∃ ls : List ℕ, (∀ l ∈ ls, 1 ≤ l) ∧ ls.sum = m ∧
    ringCost E i ls = ringBest E i m := by
  intro m
  induction m using Nat.strong_induction_on with
  | _ m ih =>
    intro i
    by_cases hm : m = 0
    · subst hm
      exact ⟨[], by simp, rfl, by rw [ringBest_zero]; rfl⟩
    · obtain ⟨l, h1, h2, h3⟩ := ringBest_first (E := E) i (by omega : 0 < m)
      obtain ⟨ls, e1, e2, e3⟩ := ih (m - l) (by omega) (i + l)
      refine ⟨l :: ls, ?_, ?_, ?_⟩
      · intro x hx
        rcases List.mem_cons.1 hx with rfl | hx
        · exact h1
        · exact e1 x hx
      · rw [List.sum_cons, e2]; omega
      · rw [ringCost, e3, h3]

/-- Following the table from the best start gives the cheapest split. -/
theorem fw_best {n N : ℕ} {E : ℕ → ℕ → WithTop ℚ} (h : RingCost n E) (hN : n ≤ N) {t : RfTab}
    (ht : ∀ a b, RfOrig n E t a b) {i0 : ℕ} (hi0 : i0 < n) {l0 : List ℕ} (hl0 : ∀ l ∈ l0, 1 ≤ l) (hs0 : l0.sum = n)
    (hf0 : ringCost E i0 l0 < ⊤) :
    rfArgmin N (fun i => (fw N t).dist i i) < n ∧
    ∃ ls, RfFollows n (fw N t).next (rfArgmin N fun i => (fw N t).dist i i) (rfArgmin N fun i => (fw N t).dist i i) ls ∧
      (∀ l ∈ ls, 1 ≤ l) ∧ ls.sum = n ∧ ringCost E (rfArgmin N fun i => (fw N t).dist i i) ls < ⊤ ∧
      ∀ i < n, ∀ ls' : List ℕ, (∀ l ∈ ls', 1 ≤ l) → ls'.sum = n →
        ringCost E (rfArgmin N fun i => (fw N t).dist i i) ls ≤ ringCost E i ls' := by
  have hdone := fw_done h hN ht
  obtain ⟨hb, hbmin⟩ := rfArgmin_spec (fun i => (fw N t).dist i i) N (by omega)
  generalize rfArgmin N (fun i => (fw N t).dist i i) = b at hb hbmin
  generalize fw N t = t' at hdone hbmin
  have hle : ∀ i < n, ∀ ls' : List ℕ, (∀ l ∈ ls', 1 ≤ l) → ls'.sum = n → t'.dist b b ≤ ringCost E i ls' := by
    intro i hi ls' h1 h2
    obtain ⟨c, hc, hc2⟩ := fw_diag_le h hN hdone hi h1 h2
    exact le_trans (hbmin c (by omega)) hc2
  have hfin : t'.dist b b < ⊤ := lt_of_le_of_lt (hle i0 hi0 l0 hl0 hs0) hf0
  have hD := hdone b b hb hb
  have hbn : b < n := (ringTab_lt (lt_of_le_of_lt hD.lb hfin)).1
  have hlen : ringLen n b b = n := by unfold ringLen; rw [if_neg (by omega)]; omega
  have heq : t'.dist b b = ringTab n (ringBest E) b b := by
    refine le_antisymm ?_ hD.lb
    rw [ringTab_len hbn hbn, hlen]
    obtain ⟨ls, e1, e2, e3⟩ := ringBest_attained (E := E) n b
    rw [← e3]
    exact hle b hbn ls e1 e2
  obtain ⟨ls, f1, f2, f3, f4⟩ := fw_follow h hN hbn hdone (ringLen n b b) b hbn le_rfl heq hfin
  rw [hlen] at f3
  rw [← heq] at f4
  exact ⟨hbn, ls, f1, f2, f3, lt_of_le_of_lt f4 hfin, fun i hi ls' h1 h2 => le_trans f4 (hle i hi ls' h1 h2)⟩

end Verif
