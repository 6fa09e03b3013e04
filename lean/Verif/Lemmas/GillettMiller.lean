import Verif.Model.GillettMiller
import Verif.Lemmas.Sweep

/-! # Lemmas on the Gillett-Miller callback -/

namespace Verif

open Spec

theorem gmArgmin_mem {key : ℕ → ℚ} : ∀ {l : List ℕ} {k : ℕ}, gmArgmin key l = some k → k ∈ l
  | [], k, h => by simp [gmArgmin] at h
  | a :: t, k, h => by
    unfold gmArgmin at h
    cases hb : gmArgmin key t with
    | none => rw [hb] at h; simp at h; simp [h]
    | some b =>
      rw [hb] at h
      simp only at h
      by_cases hk : key a ≤ key b
      · rw [if_pos hk] at h; simp at h; simp [h]
      · rw [if_neg hk] at h
        simp at h
        exact List.mem_cons_of_mem _ (gmArgmin_mem (h ▸ hb))

theorem gmArgmin_le {key : ℕ → ℚ} : ∀ {l : List ℕ} {k : ℕ}, gmArgmin key l = some k → ∀ m ∈ l, key k ≤ key m
  | [], k, h => by simp [gmArgmin] at h
  | a :: t, k, h => by
    unfold gmArgmin at h
    cases hb : gmArgmin key t with
    | none =>
      rw [hb] at h; simp at h
      intro m hm
      rcases List.mem_cons.1 hm with rfl | hm
      · rw [h]
      · cases t with
        | nil => simp at hm
        | cons x t =>
          unfold gmArgmin at hb
          cases hc : gmArgmin key t with
          | none => rw [hc] at hb; simp at hb
          | some c => rw [hc] at hb; simp only at hb; split at hb <;> simp at hb
    | some b =>
      rw [hb] at h
      simp only at h
      have hmin := gmArgmin_le hb
      intro m hm
      by_cases hk : key a ≤ key b
      · rw [if_pos hk] at h; simp at h; subst h
        rcases List.mem_cons.1 hm with rfl | hm
        · exact le_refl _
        · exact le_trans hk (hmin m hm)
      · rw [if_neg hk] at h
        simp at h; subst h
        rcases List.mem_cons.1 hm with rfl | hm
        · exact le_of_lt (not_le.1 hk)
        · exact hmin m hm

/-- The first node with a least key is the one chosen. -/
theorem gmArgmin_split {key : ℕ → ℚ} {pre post : List ℕ} {k : ℕ} (h1 : ∀ m ∈ pre, key k < key m)
    (h2 : ∀ m ∈ post, key k ≤ key m) : gmArgmin key (pre ++ k :: post) = some k := by
  induction pre with
  | nil =>
    simp only [List.nil_append, gmArgmin]
    cases hb : gmArgmin key post with
    | none => rfl
    | some b => simp only; rw [if_pos (h2 b (gmArgmin_mem hb))]
  | cons a pre ih =>
    simp only [List.cons_append, gmArgmin]
    rw [ih fun m hm => h1 m (List.mem_cons_of_mem _ hm)]
    simp only
    rw [if_neg (not_le.2 (h1 a List.mem_cons_self))]

theorem gmWithin_spec {C L : Option ℚ} {f x : ℚ} (h : gmWithin C L f x = true) :
    truthy C = true ∧ truthy L = true ∧ Within L S_EPS f ∧ Within C C_EPS x := by
  cases L with
  | none => simp [gmWithin] at h
  | some l =>
    cases C with
    | none => simp [gmWithin] at h
    | some c =>
      simp only [gmWithin, Bool.and_eq_true, bne_iff_ne, ne_eq, decide_eq_true_eq] at h
      obtain ⟨⟨hl, h1⟩, hc, h2⟩ := h
      refine ⟨by simp [truthy, hc], by simp [truthy, hl], ?_, ?_⟩
      · rw [← exceeds_iff]; simp [exceeds]; intro _; linarith
      · rw [← exceeds_iff]; simp [exceeds]; intro _; linarith

theorem gmWithin_intro {C L : Option ℚ} {f x l c : ℚ} (hL : L = some l) (hl : l ≠ 0) (hC : C = some c)
    (hc : c ≠ 0) (h1 : f < l + S_EPS) (h2 : x ≤ c + C_EPS) : gmWithin C L f x = true := by
  subst hL hC
  simp only [gmWithin, Bool.and_eq_true, bne_iff_ne, ne_eq, decide_eq_true_eq]
  exact ⟨⟨hl, by linarith⟩, hc, by linarith⟩

theorem dictSet_new {l : List ℕ} {n : ℕ} (h : n ∉ l) : ODS.dictSet l n = l ++ [n] := by
  unfold ODS.dictSet
  rw [if_neg h]

/-- The node `k` in the place of `j`. -/
def gmSwap (k j n : ℕ) : ℕ := if n = j then k else n

theorem gmLooks_eq (g : GmData) (fwd : Bool) (routed : ℕ → Bool) (kii jjx : ℕ) (jii : Option ℕ)
    (hjj : jii ≠ some jjx) (hN : g.N = g.nodes.length + 1) :
    ∀ (ns : List ℕ) (c : GmChain), c.pos < g.nodes.length →
      (∀ i < ns.length, g.nodes[posAt fwd g.nodes.length c.pos (i + 1)]? = ns[i]?) →
      (c.D3 ++ ns.filter (fun n => !routed n)).Nodup →
      (c.D4 ++ (ns.filter (fun n => !routed n)).map (gmSwap kii jjx)).Nodup →
      (c.D6 ++ ((ns.filter (fun n => !routed n)).filter (fun n => some n != jii)).map (gmSwap kii jjx)).Nodup →
      gmLooks g fwd routed kii jjx jii ns.length c = .ok {
        D3 := c.D3 ++ ns.filter (fun n => !routed n)
        D4 := c.D4 ++ (ns.filter (fun n => !routed n)).map (gmSwap kii jjx)
        D6 := c.D6 ++ ((ns.filter (fun n => !routed n)).filter (fun n => some n != jii)).map (gmSwap kii jjx)
        JJX := c.JJX || decide (jjx ∈ ns.filter (fun n => !routed n))
        JII := c.JII || (ns.filter (fun n => !routed n)).any (fun n => some n == jii)
        pos := posAt fwd g.nodes.length c.pos ns.length } := by
  have hN2 : g.N - 2 = g.nodes.length - 1 := by omega
  intro ns
  induction ns with
  | nil =>
    intro c hp _ _ _ _
    simp [gmLooks, posAt_zero fwd hp]
  | cons n ns ih =>
    intro c hp hns h3 h4 h6
    have hpos : 0 < g.nodes.length := by omega
    have hs : sweepStep fwd c.pos (g.N - 2) = posAt fwd g.nodes.length c.pos 1 := by
      have := sweepStep_posAt fwd hpos c.pos 0
      rw [posAt_zero fwd hp] at this
      rw [hN2, this]
    have hn : g.nodes[posAt fwd g.nodes.length c.pos 1]? = some n := by
      have := hns 0 (by simp)
      simpa using this
    have hlt : posAt fwd g.nodes.length c.pos 1 < g.nodes.length := posAt_lt fwd hpos _ _
    have hshift : ∀ k, posAt fwd g.nodes.length (posAt fwd g.nodes.length c.pos 1) k
        = posAt fwd g.nodes.length c.pos (k + 1) := by
      intro k
      rw [← hs, hN2]
      exact posAt_shift fwd hp k
    have hns' : ∀ i < ns.length, g.nodes[posAt fwd g.nodes.length (posAt fwd g.nodes.length c.pos 1) (i + 1)]? = ns[i]? := by
      intro i hi
      rw [hshift]
      have := hns (i + 1) (by simp; omega)
      simpa using this
    simp only [List.length_cons, gmLooks]
    cases hr : routed n with
    | true =>
      have e1 : gmLook g fwd routed kii jjx jii c = .ok { c with pos := posAt fwd g.nodes.length c.pos 1 } := by
        simp only [gmLook, hs, hn, hr, if_true]
      rw [e1]
      simp only
      rw [List.filter_cons_of_neg (by simp [hr])] at h3 h4 h6 ⊢
      rw [ih ({ c with pos := posAt fwd g.nodes.length c.pos 1 }) hlt hns' h3 h4 h6, hshift]
    | false =>
      rw [List.filter_cons_of_pos (by simp [hr])] at h3 h4 h6 ⊢
      have hD3 : n ∉ c.D3 := by
        intro hm
        exact (List.nodup_append.1 h3).2.2 n hm n (by simp) rfl
      have hD4 : gmSwap kii jjx n ∉ c.D4 := by
        intro hm
        exact (List.nodup_append.1 h4).2.2 _ hm (gmSwap kii jjx n) (by simp) rfl
      by_cases hj : n = jjx
      · subst hj
        have hni : (some n != jii) = true := by
          simp only [bne_iff_ne, ne_eq]; exact fun e => hjj e.symm
        rw [List.filter_cons_of_pos (p := fun n => some n != jii) hni] at h6 ⊢
        have hsw : gmSwap kii n n = kii := by simp [gmSwap]
        have hD6 : gmSwap kii n n ∉ c.D6 := by
          intro hm
          exact (List.nodup_append.1 h6).2.2 _ hm (gmSwap kii n n) (by simp) rfl
        have e1 : gmLook g fwd routed kii n jii c = .ok
            ⟨c.D3 ++ [n], c.D4 ++ [gmSwap kii n n], c.D6 ++ [gmSwap kii n n], true, c.JII, posAt fwd g.nodes.length c.pos 1⟩ := by
          simp only [gmLook, hs, hn, hr, if_true, Bool.false_eq_true, if_false]
          rw [hsw] at hD4 hD6 ⊢
          rw [dictSet_new hD3, dictSet_new hD4, dictSet_new hD6]
        rw [e1]
        simp only
        rw [ih ⟨_, _, _, _, _, posAt fwd g.nodes.length c.pos 1⟩ hlt hns' (by simpa using h3) (by simpa using h4) (by simpa using h6), hshift]
        have : (some n == jii) = false := by simpa [bne] using hni
        simp [this]
      · have hsw : gmSwap kii jjx n = n := by simp [gmSwap, hj]
        by_cases hi : some n = jii
        · have hni : ¬ (some n != jii) = true := by simp [hi]
          rw [List.filter_cons_of_neg (p := fun n => some n != jii) hni] at h6 ⊢
          have e1 : gmLook g fwd routed kii jjx jii c = .ok
            ⟨c.D3 ++ [n], c.D4 ++ [n], c.D6, c.JJX, true, posAt fwd g.nodes.length c.pos 1⟩ := by
            simp only [gmLook, hs, hn, hr, Bool.false_eq_true, if_false]
            rw [if_neg hj, if_pos hi]
            rw [hsw] at hD4
            rw [dictSet_new hD3, dictSet_new hD4]
          rw [e1]
          simp only
          rw [ih ⟨_, _, _, _, _, posAt fwd g.nodes.length c.pos 1⟩ hlt hns' (by simpa using h3) (by simpa [hsw] using h4) (by simpa using h6), hshift]
          have : decide (jjx ∈ n :: ns.filter fun n => !routed n) = decide (jjx ∈ ns.filter fun n => !routed n) := by
            simp [Ne.symm hj]
          rw [this]
          simp [hi, hsw]
        · have hni : (some n != jii) = true := by simp [hi]
          rw [List.filter_cons_of_pos (p := fun n => some n != jii) hni] at h6 ⊢
          have hD6 : gmSwap kii jjx n ∉ c.D6 := by
            intro hm
            exact (List.nodup_append.1 h6).2.2 _ hm (gmSwap kii jjx n) (by simp) rfl
          have e1 : gmLook g fwd routed kii jjx jii c = .ok
            ⟨c.D3 ++ [n], c.D4 ++ [n], c.D6 ++ [n], c.JJX, c.JII, posAt fwd g.nodes.length c.pos 1⟩ := by
            simp only [gmLook, hs, hn, hr, Bool.false_eq_true, if_false]
            rw [if_neg hj, if_neg hi]
            rw [hsw] at hD4 hD6
            rw [dictSet_new hD3, dictSet_new hD4, dictSet_new hD6]
          rw [e1]
          simp only
          rw [ih ⟨_, _, _, _, _, posAt fwd g.nodes.length c.pos 1⟩ hlt hns' (by simpa using h3) (by simpa [hsw] using h4) (by simpa [hsw] using h6), hshift]
          have : decide (jjx ∈ n :: ns.filter fun n => !routed n) = decide (jjx ∈ ns.filter fun n => !routed n) := by
            simp [Ne.symm hj]
          rw [this]
          have h2 : (some n == jii) = false := by simpa using hi
          simp [h2, hsw]

end Verif
