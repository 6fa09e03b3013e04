import Verif.Lemmas.CliRuns
import Verif.Lemmas.CliPost
import Verif.Lemmas.NearestNeighborLoop

/-! # The batch: lemmas -/

namespace Verif
open Spec

theorem usedD_home {o : CliOpts} {p : CliFile} (h : p.D 0 0 = 0) : usedD o p 0 0 = 0 := by
  simp [usedD, h]

theorem usedD_symm {o : CliOpts} {p : CliFile} (h : Symm p.D) : Symm (usedD o p) := by
  intro i j
  simp only [usedD, h i j]

theorem matrix_ok {o : CliOpts} {p : CliFile} (h : o.fmt ≠ some .round) : cliMatrix o p = .ok (usedD o p) := by
  unfold cliMatrix
  rcases hf : o.fmt with _ | _ | _ | _
  · simp only [Except.ok.injEq]; funext i j; simp [usedD, hf]
  · exact absurd hf h
  · simp only [Except.ok.injEq]; funext i j; simp [usedD, hf]
  · simp only [Except.ok.injEq]; funext i j; simp [usedD, hf]

theorem costs_ok {o : CliOpts} {p : CliFile} : ∃ Dc, cliCosts o p (usedD o p) = .ok Dc ∧ usedDc o p Dc := by
  unfold cliCosts usedDc
  rcases hs : p.st with _ | st
  · exact ⟨usedD o p, by simp [truthy], by simp⟩
  · by_cases h0 : st = 0
    · subst h0
      exact ⟨usedD o p, by simp [truthy], by simp⟩
    · have : truthy (some st) = true := by simp [truthy, h0]
      rw [if_pos this]
      simp only [Option.getD_some]
      obtain ⟨Dc, hDc⟩ : ∃ Dc, D2D_c (if o.fmt = some .truncate then .float else p.ty) (usedD o p) st = .ok Dc := by
        simp [D2D_c, h0]
      exact ⟨Dc, hDc, by rw [if_neg (by simp [h0])]; exact ⟨st, rfl, hDc⟩⟩

theorem usedDc_home {o : CliOpts} {p : CliFile} {Dc : ℕ → ℕ → ℚ} (h : usedDc o p Dc) (h0 : p.D 0 0 = 0) : Dc 0 0 = 0 := by
  unfold usedDc at h
  by_cases hs : p.st = none ∨ p.st = some 0
  · rw [if_pos hs] at h
    rw [h]; exact usedD_home h0
  · rw [if_neg hs] at h
    obtain ⟨st, -, h2⟩ := h
    unfold D2D_c at h2
    by_cases hst : st = 0
    · rw [if_pos hst] at h2; cases h2
    · rw [if_neg hst] at h2
      simp only [Except.ok.injEq] at h2
      rw [← h2]
      simp

/-- The quality of a route is its length and what depends on its number of customers. -/
theorem quality_shift {o : CliOpts} {p : CliFile} {Dc : ℕ → ℕ → ℚ} (h : usedDc o p Dc) :
    ∃ t u, ∀ b : List ℕ, b ≠ [] → b.Nodup → 0 ∉ b → cost Dc (wrap b) = cost (usedD o p) (wrap b) + (b.length : ℚ) * t + u := by
  unfold usedDc at h
  by_cases hs : p.st = none ∨ p.st = some 0
  · rw [if_pos hs] at h
    exact ⟨0, 0, fun b _ _ _ => by rw [h]; ring⟩
  · rw [if_neg hs] at h
    obtain ⟨st, -, h2⟩ := h
    exact cost_shift h2

theorem normal_cost {Q : ℕ → ℕ → ℚ} {s m : List ℕ} (h : NormalForm s m)
    (hr : ∀ b ∈ blocks s, cost Q (wrap b.reverse) = cost Q (wrap b)) :
    cost Q m = ((blocks s).map fun b => cost Q (wrap b)).sum := by
  conv_lhs => rw [h.tour]
  rw [cost_tour_sum]
  obtain ⟨cs, h1, h2⟩ := h.same
  rw [← (h1.map _).sum_eq]
  have hr' : ∀ c ∈ cs, cost Q (wrap c.reverse) = cost Q (wrap c) := fun c hc => hr c (h1.mem_iff.1 hc)
  clear h1
  generalize blocks m = R at h2
  induction h2 with
  | nil => rfl
  | @cons c b cs' bs' h _ ih =>
    simp only [List.map_cons, List.sum_cons]
    rw [ih fun c' hc' => hr' c' (by simp [hc'])]
    congr 1
    have := hr' c (by simp)
    rcases h with rfl | rfl
    · rfl
    · rw [List.reverse_reverse] at this
      exact this

theorem wrap_reverse_cost {D : ℕ → ℕ → ℚ} (hD : Symm D) (b : List ℕ) : cost D (wrap b.reverse) = cost D (wrap b) := by
  rw [← cost_reverse hD]
  simp [wrap]

/-- The solution and the figures that are reported. -/
theorem polish_ok {o : CliOpts} {p : CliFile} {Dc : ℕ → ℕ → ℚ} (hDc : usedDc o p Dc) (h0 : p.D 0 0 = 0) {s : List ℕ}
    (hs : s ≠ []) (hpost : o.post ≠ [] → Symm p.D ∧ (customers s).Nodup) :
    ∃ F, ∀ fuel, F ≤ fuel → ∃ m, cliPolish fuel o p (usedD o p) Dc s = .ok (some (m, quality o p Dc m, (blocks m).length)) ∧
      Polished o (usedD o p) s m ∧ DepotEnds m ∧ (∀ x ∈ m, x = 0 ∨ x ∈ s) ∧ m.count 0 - 1 = (blocks m).length ∧
      (blocks m).length = (blocks s).length := by
  obtain ⟨m0, e1, e2, e3, e4⟩ := normalForm hs
  have hq : ∀ m, DepotEnds m → recalculate_objective m (if o.show_cost = true then Dc else usedD o p) = .ok (quality o p Dc m) := by
    intro m hm
    have : (if o.show_cost = true then Dc else usedD o p) 0 0 = 0 := by
      split_ifs
      · exact usedDc_home hDc h0
      · exact usedD_home h0
    rw [C10_depot_ends _ this m hm, objf_eq_cost]
    unfold quality
    split_ifs <;> rfl
  by_cases hp : o.post = []
  · refine ⟨0, fun fuel _ => ⟨m0, ?_, ⟨e2.tour, by rw [if_pos hp]; exact e2⟩, e3, normal_mem e2, normal_count e2,
      (sameRoutes_length e2.same).symm⟩⟩
    simp only [cliPolish, e1, hq m0 e3, if_pos hp, normal_count e2]
  · obtain ⟨hD, hn⟩ := hpost hp
    have hD' := usedD_symm (o := o) hD
    obtain ⟨F, hF⟩ := post_search hD' (d := p.d) (ops := cliOps o (usedD o p)) (by
      intro op hop
      simp only [cliOps, List.mem_map] at hop
      obtain ⟨x, -, rfl⟩ := hop
      cases x
      · exact .inl rfl
      · exact .inr rfl) .FIRST_ACCEPT .ALL_ACCEPT e3
    refine ⟨F, fun fuel hf => ?_⟩
    obtain ⟨bs, g1, g2⟩ := hF fuel hf
    have hbs : ∀ b ∈ bs, b ≠ [] ∧ ∀ x ∈ b, x ≠ 0 := by
      have hb0 := mem_blocks m0
      clear g1 hF
      revert hb0
      generalize blocks m0 = R at g2
      induction g2 with
      | nil => intro _; simp
      | @cons b b' l l' h _ ih =>
        intro hb0 c hc
        rcases List.mem_cons.1 hc with rfl | hc
        · have := hb0 b (by simp)
          refine ⟨fun hh => this.1 ?_, fun x hx => this.2 x (h.1.mem_iff.1 hx)⟩
          rw [hh] at h
          simpa using h.1.symm
        · exact ih (fun b hb => hb0 b (by simp [hb])) c hc
    obtain ⟨m, f1, f2, f3, f4⟩ := normalForm (tour_ne_nil bs)
    have hbt := blocks_tour_of_routes bs hbs
    have hfl : bs.flatten.Perm (blocks m0).flatten := by
      clear g1 hF hbs f1 f2 hbt
      generalize blocks m0 = R at g2
      induction g2 with
      | nil => exact .refl _
      | cons h _ ih => exact List.Perm.append h.1 ih
    -- the routes
    have hsh : Shortened (usedD o p) s m := by
      obtain ⟨cs, c1, c2⟩ := e2.same
      obtain ⟨ds, d1, d2⟩ := f2.same
      rw [hbt] at d1
      have step1 : List.Forall₂ (fun c b => b.Perm c ∧ cost (usedD o p) (wrap b) ≤ cost (usedD o p) (wrap c)) cs bs := by
        clear c1 d1 d2 hfl hbt f1 f2 hbs g1 hF e1 e2 e3 e4
        generalize blocks m0 = R at c2 g2
        induction g2 generalizing cs with
        | nil => cases c2; exact .nil
        | cons h _ ih =>
          cases c2 with
          | cons h1 h2 =>
            refine .cons ?_ (ih _ h2)
            rcases h1 with rfl | rfl
            · exact h
            · exact ⟨h.1.trans (List.reverse_perm _).symm, by rw [wrap_reverse_cost hD']; exact h.2⟩
      obtain ⟨cs', c3, c4⟩ : ∃ cs', cs'.Perm cs ∧
          List.Forall₂ (fun c b => b.Perm c ∧ cost (usedD o p) (wrap b) ≤ cost (usedD o p) (wrap c)) cs' ds := by
        have := List.perm_comp_forall₂ d1 (List.Forall₂.flip step1)
        obtain ⟨cs', q1, q2⟩ := this
        exact ⟨cs', q2, q1.flip⟩
      refine ⟨cs', c3.trans c1, ?_⟩
      clear c3 c1 step1 d1 c2 hfl hbt f1 f2 hbs g1 hF e1 e2 e3 e4
      generalize blocks m = R at d2
      induction c4 generalizing R with
      | nil => cases d2; exact .nil
      | cons h _ ih =>
        cases d2 with
        | cons h1 h2 =>
          refine .cons ?_ (ih _ h2)
          rcases h1 with rfl | rfl
          · exact h
          · exact ⟨(List.reverse_perm _).symm.trans h.1, by
              have := h.2
              rw [wrap_reverse_cost hD'] at this
              exact this⟩
    -- the quality
    obtain ⟨t, u, hshift⟩ : ∃ t u, ∀ b : List ℕ, b ≠ [] → b.Nodup → 0 ∉ b →
        cost (if o.show_cost = true then Dc else usedD o p) (wrap b) = cost (usedD o p) (wrap b) + (b.length : ℚ) * t + u := by
      by_cases hsc : o.show_cost = true
      · simp only [if_pos hsc]
        exact quality_shift hDc
      · exact ⟨0, 0, fun b _ _ _ => by rw [if_neg hsc]; ring⟩
    have hqq : ∀ m, quality o p Dc m = cost (if o.show_cost = true then Dc else usedD o p) m := by
      intro m
      unfold quality
      split_ifs <;> rfl
    have hnd : (blocks m0).flatten.Nodup := by
      rw [(sameRoutes_flatten e2.same).nodup_iff, blocks_flatten]
      exact hn
    have hnd1 : bs.flatten.Nodup := hfl.nodup_iff.2 hnd
    have hnb : ∀ (R : List (List ℕ)), R.flatten.Nodup → ∀ b ∈ R, b.Nodup := fun R hR b hb => (List.nodup_flatten.1 hR).1 b hb
    have hrev : ∀ (R : List (List ℕ)), R.flatten.Nodup → (∀ b ∈ R, b ≠ [] ∧ ∀ x ∈ b, x ≠ 0) → ∀ b ∈ R,
        cost (if o.show_cost = true then Dc else usedD o p) (wrap b.reverse) =
          cost (if o.show_cost = true then Dc else usedD o p) (wrap b) := by
      intro R hR hR0 b hb
      have h1 := hR0 b hb
      have h2 := hnb R hR b hb
      have h3 : 0 ∉ b := fun h => h1.2 0 h rfl
      rw [hshift b h1.1 h2 h3, hshift b.reverse (by simpa using h1.1) (by simpa using h2) (by simpa using h3),
        wrap_reverse_cost hD', List.length_reverse]
    have q0 : quality o p Dc m0 = ((blocks m0).map fun b => cost (if o.show_cost = true then Dc else usedD o p) (wrap b)).sum := by
      rw [hqq]
      conv_lhs => rw [e2.tour]
      rw [cost_tour_sum]
    have q1 : quality o p Dc m = (bs.map fun b => cost (if o.show_cost = true then Dc else usedD o p) (wrap b)).sum := by
      rw [hqq, normal_cost f2 (by rw [hbt]; exact hrev bs hnd1 hbs), hbt]
    have hle : quality o p Dc m ≤ quality o p Dc m0 := by
      rw [q0, q1]
      have hb0 := mem_blocks m0
      clear q0 q1 hsh hfl hbt f1 f2 g1 hF e1 e2 e3 e4 hrev
      generalize blocks m0 = R at g2 hnd hb0
      induction g2 with
      | nil => simp
      | @cons b b' l l' h _ ih =>
        simp only [List.map_cons, List.sum_cons]
        have i1 := ih (fun c hc => hbs c (by simp [hc])) (List.nodup_append.1 (by simpa using hnd1)).2.1
          (List.nodup_append.1 (by simpa using hnd)).2.1 (fun c hc => hb0 c (by simp [hc]))
        have a1 := hb0 b (by simp)
        have a2 := hbs b' (by simp)
        have s1 := hshift b a1.1 (hnb _ hnd b (by simp)) (fun hz => a1.2 0 hz rfl)
        have s2 := hshift b' a2.1 (hnb _ hnd1 b' (by simp)) (fun hz => a2.2 0 hz rfl)
        have hl : (b'.length : ℚ) = b.length := by rw [h.1.length_eq]
        rw [s1, s2, hl]
        have := h.2
        linarith
    have hlen : (blocks m).length = (blocks m0).length := by
      rw [← sameRoutes_length f2.same, hbt, g2.length_eq]
    refine ⟨m, ?_, ⟨f2.tour, by rw [if_neg hp]; exact hsh⟩, f3, ?_, normal_count f2, by
      rw [hlen, sameRoutes_length e2.same]⟩
    · simp only [cliPolish, e1, hq m0 e3, if_neg hp, g1, f1, hq m f3]
      by_cases hlt : quality o p Dc m < quality o p Dc m0
      · rw [if_pos hlt, normal_count f2]
      · rw [if_neg hlt, normal_count e2, hlen, le_antisymm hle (not_lt.1 hlt)]
    · intro x hx
      rcases normal_mem f2 x hx with rfl | h
      · exact .inl rfl
      · rcases (mem_tour bs x).1 h with rfl | h
        · exact .inl rfl
        · have := hfl.mem_iff.1 h
          rw [blocks_flatten] at this
          exact normal_mem e2 x (List.mem_filter.1 this).1

end Verif
