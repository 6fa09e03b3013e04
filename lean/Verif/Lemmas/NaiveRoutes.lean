import Verif.Lemmas.Naive
import Verif.Lemmas.ParallelSavings

/-! # Lemmas about the naive operators for single routes and the naive local search -/

namespace Verif
open Spec

/-! ## Feasibility -/

theorem feasible_append {D : ℕ → ℕ → ℚ} {d : ℕ → ℚ} {C L : Option ℚ} {l r : List ℕ} :
    Feasible D d C L (l ++ 0 :: r) ↔ Feasible D d C L l ∧ Feasible D d C L r := by
  unfold Feasible
  rw [blocks_append_zero]
  simp only [List.mem_append]
  exact ⟨fun h => ⟨fun b hb => h b (.inl hb), fun b hb => h b (.inr hb)⟩, fun h b hb => hb.elim (h.1 b) (h.2 b)⟩

theorem feasible_block {D : ℕ → ℕ → ℚ} {d : ℕ → ℚ} {C L : Option ℚ} {b : List ℕ} (hb : ∀ x ∈ b, x ≠ 0) (hne : b ≠ []) :
    Feasible D d C L b ↔ RouteOk D d C L b := by
  unfold Feasible
  rw [blocks_zerofree b hb, if_neg hne]
  simp

theorem feasible_wrap {D : ℕ → ℕ → ℚ} {d : ℕ → ℚ} {C L : Option ℚ} {b : List ℕ} : Feasible D d C L (wrap b) ↔ Feasible D d C L b := by
  have h1 : wrap b = [] ++ 0 :: (b ++ 0 :: []) := by simp [wrap]
  have h2 : Feasible D d C L [] := by intro c hc; simp [blocks] at hc
  rw [h1, feasible_append, feasible_append]
  simp [h2]

theorem feasible_tour {D : ℕ → ℕ → ℚ} {d : ℕ → ℚ} {C L : Option ℚ} : ∀ {bs : List (List ℕ)},
    Feasible D d C L (tour bs) ↔ ∀ b ∈ bs, Feasible D d C L b
  | [] => by
    have : ∀ b ∈ blocks (tour []), RouteOk D d C L b := by intro b hb; simp [tour] at hb
    exact ⟨fun _ b hb => by simp at hb, fun _ => this⟩
  | b :: bs => by
    obtain ⟨r, hr⟩ := tour_eq_cons bs
    have h1 : tour (b :: bs) = [] ++ 0 :: (b ++ 0 :: r) := by rw [tour, hr]; rfl
    have h2 : Feasible D d C L [] := by intro c hc; simp [blocks] at hc
    have h3 : Feasible D d C L (tour bs) ↔ Feasible D d C L r := by
      have : tour bs = [] ++ 0 :: r := by rw [hr]; rfl
      rw [this, feasible_append]
      simp [h2]
    rw [h1, feasible_append, feasible_append, ← h3, feasible_tour]
    simp [h2]

/-- A change of one route that does not make the solution longer keeps the limits. -/
theorem feasible_replace {D : ℕ → ℕ → ℚ} {d : ℕ → ℚ} {C L : Option ℚ} {p q b b' : List ℕ} (hb : ∀ x ∈ b, x ≠ 0) (hp : b'.Perm b)
    (hf : Feasible D d C L (p ++ 0 :: (b ++ 0 :: q))) (hc : cost D (wrap b') ≤ cost D (wrap b)) : Feasible D d C L (p ++ 0 :: (b' ++ 0 :: q)) := by
  rw [feasible_append, feasible_append] at hf ⊢
  refine ⟨hf.1, ?_, hf.2.2⟩
  by_cases hne : b = []
  · subst hne
    obtain rfl := hp.eq_nil
    exact hf.2.1
  · have hne' : b' ≠ [] := by rintro rfl; exact hne hp.symm.eq_nil
    have h1 := (feasible_block hb hne).1 hf.2.1
    refine (feasible_block (fun x hx => hb x (hp.mem_iff.1 hx)) hne').2 ⟨?_, ?_⟩
    · rw [demand_perm d hp]; exact h1.1
    · intro c h2 h3
      exact le_trans hc (h1.2 c h2 h3)

theorem nv_cost_replace (D : ℕ → ℕ → ℚ) (p q b b' : List ℕ) :
    cost D (p ++ 0 :: (b' ++ 0 :: q)) - cost D (p ++ 0 :: (b ++ 0 :: q)) = cost D (wrap b') - cost D (wrap b) := by
  have h : ∀ c : List ℕ, cost D (p ++ 0 :: (c ++ 0 :: q)) = cost D (p ++ [0]) + cost D (wrap c) + cost D (0 :: q) := by
    intro c
    have e : 0 :: (c ++ 0 :: q) = (0 :: c) ++ 0 :: q := rfl
    rw [cost_append_cons, e, cost_append_cons D (0 :: c)]
    simp only [wrap, List.cons_append]
    ring
  rw [h, h]
  ring

/-- A reversal happens on one route. -/
theorem reverse_route {sol t : List ℕ} (hs : DepotEnds sol) (h : NbReverse sol t) : ∃ p q P B Q, (∀ x ∈ P ++ B ++ Q, x ≠ 0) ∧ 2 ≤ B.length ∧
    sol = p ++ 0 :: ((P ++ B ++ Q) ++ 0 :: q) ∧ t = p ++ 0 :: ((P ++ B.reverse ++ Q) ++ 0 :: q) := by
  obtain ⟨A, B, E, hA, hE, hB, h0, rfl, rfl⟩ := h
  have hA0 : A.head? = some 0 := by
    have := hs.1
    cases A with
    | nil => exact absurd rfl hA
    | cons a A => simpa using this
  have hE0 : E.getLast? = some 0 := by
    have := hs.2
    rwa [getLast_append_ne hE] at this
  obtain ⟨A0, P, rfl, hP⟩ := split_left hA0
  obtain ⟨Q, E0, rfl, hQ⟩ := split_right hE0
  refine ⟨A0, E0, P, B, Q, ?_, hB, by simp, by simp⟩
  intro x hx
  rcases List.mem_append.1 hx with hx | hx
  · rcases List.mem_append.1 hx with hx | hx
    · exact hP x hx
    · exact h0 x hx
  · exact hQ x hx

theorem feasible_reverse {D : ℕ → ℕ → ℚ} {d : ℕ → ℚ} {C L : Option ℚ} {sol t : List ℕ} (hs : DepotEnds sol) (h : NbReverse sol t)
    (hf : Feasible D d C L sol) (hc : cost D t ≤ cost D sol) : Feasible D d C L t := by
  obtain ⟨p, q, P, B, Q, h0, -, rfl, rfl⟩ := reverse_route hs h
  refine feasible_replace h0 ((List.Perm.append_left _ (List.reverse_perm B)).append_right _) hf ?_
  have := nv_cost_replace D p q (P ++ B ++ Q) (P ++ B.reverse ++ Q)
  linarith

/-! ## Operators for single routes -/

theorem wrap_of_same {b w : List ℕ} (h : SameVisits (wrap b) w) : ∃ b', w = wrap b' ∧ b'.Perm b := by
  rcases depotEnds_cases h.ends with rfl | ⟨m, rfl⟩
  · have := h.perm.length_eq
    simp [wrap] at this
  · refine ⟨m, rfl, ?_⟩
    have h1 := h.perm
    unfold wrap at h1
    exact (List.perm_append_right_iff [0]).1 ((List.perm_cons 0).1 h1)

/-- The answer of an operator for a route. -/
def OutOf (op : List ℕ → Py (Option (List ℕ × ℚ))) (b : List ℕ) (c : List ℕ × ℚ) : Prop :=
  (op (wrap b) = .ok none ∧ c = (b, 0)) ∨ (op (wrap b) = .ok (some (wrap c.1, c.2)) ∧ c.2 ≠ 0 ∧ c.1.length = b.length)

theorem intraRoutes_eq (op : List ℕ → Py (Option (List ℕ × ℚ))) : ∀ (bs : List (List ℕ)) (n : ℕ) (pre : List ℕ) (total : ℚ), bs.length ≤ n →
    (∀ b ∈ bs, ∀ x ∈ b, x ≠ 0) → (∀ b ∈ bs, ∃ c, OutOf op b c) → ∃ cs, List.Forall₂ (OutOf op) bs cs ∧
    intraRoutes op n pre.length (pre.length + 1) (pre ++ tour bs) total = .ok (pre ++ tour (cs.map Prod.fst), total + (cs.map Prod.snd).sum) := by
  intro bs
  induction bs with
  | nil =>
    intro n pre total _ _ _
    refine ⟨[], .nil, ?_⟩
    cases n with
    | zero => simp [intraRoutes]
    | succ n => rw [intraRoutes, if_neg (by simp [tour])]; simp
  | cons b bs ih =>
    intro n pre total hn hb ho
    cases n with
    | zero => simp at hn
    | succ n =>
      obtain ⟨r, hr⟩ := tour_eq_cons bs
      obtain ⟨⟨b', x⟩, hc⟩ := ho b (by simp)
      have e1 : (pre ++ tour (b :: bs)).drop (pre.length + 1) = b ++ 0 :: r := by
        rw [tour, hr]
        have : pre ++ 0 :: (b ++ 0 :: r) = (pre ++ [0]) ++ (b ++ 0 :: r) := by simp
        rw [this]
        exact drop_append_len _ _ _ (by simp)
      have e2 : slice (pre ++ tour (b :: bs)) pre.length (pre.length + 1 + b.length + 1) = wrap b := by
        rw [tour, hr]
        have : pre ++ 0 :: (b ++ 0 :: r) = pre ++ wrap b ++ r := by simp [wrap]
        rw [this]
        exact slice_append_mid _ _ _ _ _ rfl (by simp [wrap]; omega)
      rw [intraRoutes, if_pos (by simp [tour, hr]), e1, routeEnd_eq b r _ (hb b (by simp))]
      dsimp only
      rw [e2]
      rcases hc with ⟨h1, h2⟩ | ⟨h1, h2, h3⟩
      · rw [h1]
        dsimp only
        obtain ⟨cs, g1, g2⟩ := ih n (pre ++ 0 :: b) total (by simpa using hn) (fun c hc => hb c (by simp [hc])) fun c hc => ho c (by simp [hc])
        refine ⟨(b', x) :: cs, .cons (.inl ⟨h1, h2⟩) g1, ?_⟩
        injection h2 with h2 h4
        subst h2 h4
        have e3 : (pre ++ 0 :: b').length = pre.length + 1 + b'.length := by simp; omega
        have e4 : pre ++ tour (b' :: bs) = (pre ++ 0 :: b') ++ tour bs := by simp [tour]
        rw [e4, ← e3, g2]
        simp [tour]
      · rw [h1]
        dsimp only at h2 h3 ⊢
        rw [if_pos h2]
        obtain ⟨cs, g1, g2⟩ := ih n (pre ++ 0 :: b') (total + x) (by simpa using hn) (fun c hc => hb c (by simp [hc]))
          fun c hc => ho c (by simp [hc])
        refine ⟨(b', x) :: cs, .cons (.inr ⟨h1, h2, h3⟩) g1, ?_⟩
        have e3 : (pre ++ 0 :: b').length = pre.length + 1 + b.length := by simp [h3]; omega
        have e4 : (pre ++ tour (b :: bs)).take pre.length ++ wrap b' ++ (pre ++ tour (b :: bs)).drop (pre.length + 1 + b.length + 1) =
            (pre ++ 0 :: b') ++ tour bs := by
          rw [take_append_len _ _ _ rfl, tour, hr]
          have : pre ++ 0 :: (b ++ 0 :: r) = (pre ++ wrap b) ++ r := by simp [wrap]
          rw [this, drop_append_len _ _ _ (by simp [wrap]; omega)]
          simp [wrap]
        rw [e4, ← e3, g2]
        simp [tour, add_assoc]

theorem length_le_tour (bs : List (List ℕ)) : bs.length ≤ (tour bs).length := by
  induction bs with
  | nil => simp
  | cons b bs ih => simp only [tour, List.length_cons, List.length_append]; omega

/-- An operator that is right on each route gives a right operator for solutions. -/
theorem intra_ok {op : List ℕ → Py (Option (List ℕ × ℚ))} {D : ℕ → ℕ → ℚ} {d : ℕ → ℚ} {C L : Option ℚ} {Nb : List ℕ → List ℕ → Prop} {best : Bool}
    {bs : List (List ℕ)} (hb : ∀ b ∈ bs, ∀ x ∈ b, x ≠ 0) (hN : ∀ b w, Nb (wrap b) w → SameVisits (wrap b) w)
    (hop : ∀ b ∈ bs, ∃ r, op (wrap b) = .ok r ∧ MoveOk D (fun s s' => Nb s s' ∧ Feasible D d C L s') best 0 (wrap b) r) :
    ∃ r, apply_as_intra_route op (tour bs) none = .ok r ∧ EachRouteOk D d C L Nb best bs r := by
  have heps : (0 : ℚ) < S_EPS := by norm_num [S_EPS]
  have hop' : ∀ b ∈ bs, ∃ c, OutOf op b c ∧ RouteStep D d C L Nb best b c.1 ∧ cost D (wrap c.1) = cost D (wrap b) + c.2 ∧
      (c.2 = 0 ∨ c.2 + S_EPS < 0) ∧
      (c.2 = 0 → ∀ w, Nb (wrap b) w → Feasible D d C L w → ¬ cost D w + S_EPS < cost D (wrap b)) := by
    intro b hbm
    obtain ⟨r, h1, h2⟩ := hop b hbm
    rcases r with _ | ⟨w, x⟩
    · have h3 : ∀ w, Nb (wrap b) w → Feasible D d C L w → ¬ cost D w + S_EPS < cost D (wrap b) := by
        intro w hw hf hlt
        exact h2 w ⟨hw, hf⟩ (by linarith)
      exact ⟨(b, 0), .inl ⟨h1, rfl⟩, .inl ⟨rfl, h3⟩, by simp, .inl rfl, fun _ => h3⟩
    · obtain ⟨⟨g1, g2⟩, g3, g4, g5⟩ := h2
      obtain ⟨b', rfl, hp⟩ := wrap_of_same (hN b w g1)
      have hx : x ≠ 0 := by rintro rfl; linarith
      refine ⟨(b', x), .inr ⟨h1, hx, hp.length_eq⟩, .inr ⟨g1, g2, by linarith, ?_⟩, g3, .inr g4, fun h => absurd h hx⟩
      intro hbest w hw hf hlt
      exact g5 hbest w ⟨hw, hf⟩ (by linarith)
  obtain ⟨cs, g1, g2⟩ := intraRoutes_eq op bs (tour bs).length [] 0 (length_le_tour bs) hb fun b hbm => (hop' b hbm).imp fun _ h => h.1
  have g3 : List.Forall₂ (fun b c => RouteStep D d C L Nb best b c.1 ∧ cost D (wrap c.1) = cost D (wrap b) + c.2 ∧
      (c.2 = 0 ∨ c.2 + S_EPS < 0) ∧
      (c.2 = 0 → ∀ w, Nb (wrap b) w → Feasible D d C L w → ¬ cost D w + S_EPS < cost D (wrap b))) bs cs := by
    clear g2
    have hop2 := hop'
    clear hop' hop hb
    induction g1 with
    | nil => exact .nil
    | @cons b c bs cs h1 _ ih =>
      refine .cons ?_ (ih fun b hbm => hop2 b (by simp [hbm]))
      obtain ⟨c', k1, k2⟩ := hop2 b (by simp)
      have : c' = c := by
        rcases h1 with ⟨h1, h2⟩ | ⟨h1, h2, -⟩ <;> rcases k1 with ⟨k1, k3⟩ | ⟨k1, k3, -⟩
        · rw [h2, k3]
        · rw [h1] at k1; simp at k1
        · rw [h1] at k1; simp at k1
        · rw [h1] at k1
          simp only [Except.ok.injEq, Option.some.injEq, Prod.mk.injEq] at k1
          refine Prod.ext ?_ k1.2.symm
          have := k1.1
          unfold wrap at this
          injection this with _ this
          exact (List.append_left_injective [0] this).symm
      rw [← this]
      exact k2
  have hcost : cost D (tour (cs.map Prod.fst)) = cost D (tour bs) + (cs.map Prod.snd).sum := by
    rw [cost_tour_sum, cost_tour_sum]
    clear g1 g2
    induction g3 with
    | nil => simp
    | cons h _ ih =>
      simp only [List.map_cons, List.sum_cons]
      rw [ih (fun b hbm => hb b (by simp [hbm])) (fun b hbm => hop b (by simp [hbm])) (fun b hbm => hop' b (by simp [hbm])), h.2.1]
      ring
  have hneg : (∀ c ∈ cs, c.2 = 0) ∨ (cs.map Prod.snd).sum + S_EPS < 0 := by
    have hle : ∀ c ∈ cs, c.2 = 0 ∨ c.2 + S_EPS < 0 := by
      intro c hc
      obtain ⟨i, hi, rfl⟩ := List.getElem_of_mem hc
      have h3 := List.forall₂_iff_get.1 g3
      exact (h3.2 i (by rw [h3.1]; exact hi) hi).2.2.1
    clear g1 g2 g3 hcost
    induction cs with
    | nil => left; simp
    | cons c cs ih =>
      have hs : ∀ cs : List (List ℕ × ℚ), (∀ c ∈ cs, c.2 = 0 ∨ c.2 + S_EPS < 0) → (cs.map Prod.snd).sum ≤ 0 := by
        intro cs h
        induction cs with
        | nil => simp
        | cons c cs ih =>
          simp only [List.map_cons, List.sum_cons]
          have := ih fun c hc => h c (by simp [hc])
          rcases h c (by simp) with h | h <;> linarith
      have hs' := hs cs fun c hc => hle c (by simp [hc])
      rcases hle c (by simp) with h | h
      · rcases ih fun c hc => hle c (by simp [hc]) with h2 | h2
        · left
          intro e he
          rcases List.mem_cons.1 he with rfl | he
          · exact h
          · exact h2 e he
        · right
          simp only [List.map_cons, List.sum_cons]
          linarith
      · right
        simp only [List.map_cons, List.sum_cons]
        linarith
  simp only [List.nil_append, List.length_nil, zero_add] at g2
  rw [apply_as_intra_route, g2]
  dsimp only
  have e0 : initDelta none = 0 := rfl
  rw [e0]
  by_cases hlt : (cs.map Prod.snd).sum + S_EPS < 0
  · rw [if_pos hlt]
    refine ⟨_, rfl, cs.map Prod.fst, rfl, ?_, hcost, hlt⟩
    rw [List.forall₂_map_right_iff]
    exact g3.imp fun _ _ h => h.1
  · rw [if_neg hlt]
    refine ⟨_, rfl, ?_⟩
    rcases hneg with hz | h
    · intro b hbm
      obtain ⟨i, hi, rfl⟩ := List.getElem_of_mem hbm
      have h3 := List.forall₂_iff_get.1 g3
      have hi' : i < cs.length := by rw [← h3.1]; exact hi
      exact (h3.2 i hi hi').2.2.2 (hz _ (List.getElem_mem _))
    · exact absurd h hlt

theorem routeStep_same {D : ℕ → ℕ → ℚ} {d : ℕ → ℚ} {C L : Option ℚ} {Nb : List ℕ → List ℕ → Prop} {best : Bool}
    (hN : ∀ b w, Nb (wrap b) w → SameVisits (wrap b) w) {b b' : List ℕ} (h : RouteStep D d C L Nb best b b') : b'.Perm b := by
  rcases h with ⟨rfl, -⟩ | ⟨h, -⟩
  · exact .refl _
  · obtain ⟨c, e, hp⟩ := wrap_of_same (hN _ _ h)
    unfold wrap at e
    injection e with _ e
    rw [List.append_left_injective [0] e]
    exact hp

theorem eachRouteOk_some {D : ℕ → ℕ → ℚ} {d : ℕ → ℚ} {C L : Option ℚ} {Nb : List ℕ → List ℕ → Prop} {best : Bool}
    (hN : ∀ b w, Nb (wrap b) w → SameVisits (wrap b) w) {bs : List (List ℕ)} {sol' : List ℕ} {delta : ℚ}
    (h : EachRouteOk D d C L Nb best bs (some (sol', delta))) : SameVisits (tour bs) sol' ∧ cost D sol' = cost D (tour bs) + delta ∧
      delta + S_EPS < 0 ∧ (Feasible D d C L (tour bs) → Feasible D d C L sol') := by
  obtain ⟨bs', rfl, h1, h2, h3⟩ := h
  refine ⟨⟨depotEnds_tour _, ?_⟩, h2, h3, ?_⟩
  · clear h2
    induction h1 with
    | nil => exact .refl _
    | cons h _ ih =>
      rw [tour, tour]
      exact List.Perm.cons _ ((routeStep_same hN h).append ih)
  · rw [feasible_tour, feasible_tour]
    intro hf
    clear h2
    induction h1 with
    | nil => exact hf
    | cons h _ ih =>
      intro c hc
      rcases List.mem_cons.1 hc with rfl | hc
      · rcases h with ⟨rfl, -⟩ | ⟨-, h, -⟩
        · exact hf _ (by simp)
        · exact feasible_wrap.1 h
      · exact ih (fun b hbm => hf b (by simp [hbm])) c hc

/-! ## The local search -/

section
variable {ops : List (List ℕ → Py (Option (List ℕ × ℚ)))} {D : ℕ → ℕ → ℚ} {Inv : List ℕ → Prop}

theorem naive_for (hop : ∀ op ∈ ops, ∀ s, Inv s → ∃ r, op s = .ok r ∧ ∀ s' x, r = some (s', x) → Inv s' ∧ cost D s' + S_EPS < cost D s)
    (mx : Option ℕ) : ∀ (l : List (List ℕ → Py (Option (List ℕ × ℚ)))) (s : List ℕ) (it : ℕ) (imp : Bool), (∀ op ∈ l, op ∈ ops) → Inv s →
    ∃ s' it' imp' brk, forBreak l (s, it, imp) (naiveStep mx) = .ok ((s', it', imp'), brk) ∧ Inv s' ∧
      ((s' = s ∧ imp' = imp ∧ ∀ op ∈ l, op s = .ok none) ∨ (imp' = true ∧ cost D s' + S_EPS < cost D s)) := by
  have heps : (0 : ℚ) < S_EPS := by norm_num [S_EPS]
  intro l
  induction l with
  | nil => intro s it imp _ hi; exact ⟨s, it, imp, false, rfl, hi, .inl ⟨rfl, rfl, by simp⟩⟩
  | cons op l ih =>
    intro s it imp hl hi
    obtain ⟨r, h1, h2⟩ := hop op (hl op (by simp)) s hi
    rcases r with _ | ⟨s1, x⟩
    · have e : naiveStep mx op (s, it, imp) = .ok ((s, it, imp), false) := by unfold naiveStep; rw [h1]
      rw [forBreak, e]
      dsimp only
      obtain ⟨s', it', imp', brk, g1, g2, g3⟩ := ih s it imp (fun op hop => hl op (by simp [hop])) hi
      refine ⟨s', it', imp', brk, g1, g2, ?_⟩
      rcases g3 with ⟨rfl, rfl, g3⟩ | g3
      · left
        refine ⟨rfl, rfl, fun o ho => ?_⟩
        rcases List.mem_cons.1 ho with rfl | ho
        · exact h1
        · exact g3 o ho
      · exact .inr g3
    · obtain ⟨k1, k2⟩ := h2 s1 x rfl
      have e : naiveStep mx op (s, it, imp) = .ok ((s1, it + 1, true), maxReached mx (it + 1)) := by unfold naiveStep; rw [h1]
      rw [forBreak, e]
      cases hbk : maxReached mx (it + 1) with
      | true => exact ⟨s1, it + 1, true, true, rfl, k1, .inr ⟨rfl, k2⟩⟩
      | false =>
        dsimp only
        obtain ⟨s', it', imp', brk, g1, g2, g3⟩ := ih s1 (it + 1) true (fun op hop => hl op (by simp [hop])) k1
        refine ⟨s', it', imp', brk, g1, g2, .inr ?_⟩
        rcases g3 with ⟨rfl, rfl, -⟩ | ⟨g3, g4⟩
        · exact ⟨rfl, k2⟩
        · exact ⟨g3, by linarith⟩

theorem naive_loop (hop : ∀ op ∈ ops, ∀ s, Inv s → ∃ r, op s = .ok r ∧ ∀ s' x, r = some (s', x) → Inv s' ∧ cost D s' + S_EPS < cost D s)
    (mx : Option ℕ) (hpos : ∀ s, Inv s → 0 ≤ cost D s) : ∀ (k : ℕ) (s : List ℕ) (it : ℕ), Inv s → cost D s < k * S_EPS → ∃ s',
    (∀ fuel, k ≤ fuel → naiveLoop ops mx fuel s it = .ok (some s')) ∧ Inv s' ∧ cost D s' ≤ cost D s ∧ ∀ op ∈ ops, op s' = .ok none := by
  have heps : (0 : ℚ) < S_EPS := by norm_num [S_EPS]
  intro k
  induction k with
  | zero =>
    intro s it hi hc
    have := hpos s hi
    simp at hc
    linarith
  | succ k ih =>
    intro s it hi hc
    obtain ⟨s1, it1, imp1, brk, g1, g2, g3⟩ := naive_for (D := D) (Inv := Inv) hop mx ops s it false (fun _ h => h) hi
    have hpass : naivePass ops mx s it = .ok (s1, it1, imp1) := by
      unfold naivePass
      rw [g1]
    rcases g3 with ⟨rfl, rfl, g3⟩ | ⟨rfl, g3⟩
    · refine ⟨s1, ?_, hi, le_rfl, g3⟩
      intro fuel hf
      obtain ⟨n, rfl⟩ : ∃ n, fuel = n + 1 := ⟨fuel - 1, by omega⟩
      rw [naiveLoop, hpass]
    · have hc1 : cost D s1 < k * S_EPS := by
        push_cast at hc
        linarith
      obtain ⟨s', h1, h2, h3, h4⟩ := ih s1 it1 g2 hc1
      refine ⟨s', ?_, h2, by linarith, h4⟩
      intro fuel hf
      obtain ⟨n, rfl⟩ : ∃ n, fuel = n + 1 := ⟨fuel - 1, by omega⟩
      rw [naiveLoop, hpass]
      exact h1 n (by omega)

end

end Verif
