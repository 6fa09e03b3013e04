import Verif.Model.GapSeeds
import Verif.Spec.GapSeeds
import Verif.Lemmas.Basic
import Verif.Lemmas.InterRoute
import Verif.Lemmas.WrenHollidayDis
import Mathlib.Tactic.Linarith
import Mathlib.Tactic.FieldSimp
import Mathlib.Tactic.Ring
import Mathlib.Data.Rat.Floor

/-! # Lemmas on the seed points of the generalized assignment heuristic (C68) -/

namespace Verif
open Spec

def coneSum (l : List Cone) : ℚ := (l.map Cone.demand).sum

theorem coneSum_concat (l : List Cone) (c : Cone) : coneSum (l ++ [c]) = coneSum l + c.demand := by simp [coneSum]

/-- The groups that are full have their share, all that was seen is in them or in the group at work. -/
structure ConeInv (a : ConeArgs) (w : ℚ) (s : ConeSt) : Prop where
  full : ∀ c ∈ s.groups, a.target - a.eps < c.demand
  sum : coneSum s.groups ≤ w
  cum : ∀ x, s.cum = some x → 0 ≤ x ∧ coneSum s.groups + x = w

theorem coneShare_spec {a : ConeArgs} {cum w frac c : ℚ} (hT : 0 ≤ a.target) (hw : 0 ≤ w) (h0 : 0 ≤ cum)
    (h : coneShare a cum w = some (frac, c)) :
    0 ≤ c ∧ c ≤ cum + w ∧ (if frac < 1 then (1 - frac) * w else 0) = cum + w - c ∧
      (cum < a.target → w ≤ a.target → c ≤ a.target ∧ cum + w - c < a.target) ∧ (c = a.target ∨ c = cum + w) := by
  unfold coneShare at h
  by_cases h1 : w ≠ 0
  · rw [if_pos h1] at h
    have hw' : 0 < w := lt_of_le_of_ne hw (Ne.symm h1)
    have hp := Option.some.inj h
    have hf : frac = min 1 ((a.target - cum) / w) := (Prod.ext_iff.1 hp).1.symm
    have hc : c = cum + min 1 ((a.target - cum) / w) * w := (Prod.ext_iff.1 hp).2.symm
    rw [← hf] at hc
    by_cases h2 : (a.target - cum) / w < 1
    · rw [min_eq_right h2.le] at hf
      have hc' : c = a.target := by rw [hc, hf]; field_simp; ring
      have hlt : a.target - cum < w := by rwa [div_lt_one hw'] at h2
      rw [if_pos (by rw [hf]; exact h2)]
      have he : (1 - frac) * w = w - (a.target - cum) := by rw [hf]; field_simp
      rw [he, hc']
      exact ⟨hT, by linarith, by ring, fun h3 h4 => ⟨le_refl _, by linarith⟩, Or.inl rfl⟩
    · rw [min_eq_left (not_lt.1 h2)] at hf
      have hle : w ≤ a.target - cum := by rw [not_lt, le_div_iff₀ hw'] at h2; linarith
      rw [if_neg (by rw [hf]; exact lt_irrefl _)]
      rw [hf] at hc
      refine ⟨by linarith, by linarith, by linarith, fun h3 h4 => ⟨by linarith, by linarith⟩, Or.inr (by linarith)⟩
  · rw [if_neg h1] at h
    push Not at h1
    split_ifs at h
    cases h
    rw [if_neg (lt_irrefl _), h1]
    refine ⟨h0, by linarith, by ring, fun h3 h4 => ⟨h3.le, by linarith⟩, Or.inr (by linarith)⟩

theorem coneAdd_inv {g : Trig} {a : ConeArgs} {W w pr ray : ℚ} {s : ConeSt} (hT : 0 ≤ a.target)
    (he : 0 < a.eps) (hw : 0 ≤ w) (h : ConeInv a W s) :
    ConeInv a (W + w) (coneAdd g a w pr ray s) := by
  unfold coneAdd
  dsimp only
  have hsum : coneSum s.groups ≤ W + w := by have := h.sum; linarith
  cases hc : s.cum with
  | none => exact ⟨h.full, hsum, fun x e => by cases e⟩
  | some cum =>
    obtain ⟨h0, h1⟩ := h.cum cum hc
    dsimp only
    cases hs : coneShare a cum w with
    | none => exact ⟨h.full, hsum, fun x e => by cases e⟩
    | some p =>
      obtain ⟨frac, c⟩ := p
      obtain ⟨g1, g2, g3, -, g4⟩ := coneShare_spec hT hw h0 hs
      dsimp only
      by_cases h2 : a.target - c < a.eps
      · rw [if_pos h2]
        refine ⟨fun x hx => ?_, ?_, fun x e => ?_⟩
        · rcases List.mem_append.1 hx with hx | hx
          · exact h.full x hx
          · rw [List.mem_singleton.1 hx]
            show a.target - a.eps < c
            linarith
        · show coneSum (s.groups ++ [_]) ≤ _
          rw [coneSum_concat]
          show coneSum s.groups + c ≤ _
          linarith
        · cases e
          show _ ∧ coneSum (s.groups ++ [_]) + _ = _
          rw [g3, coneSum_concat]
          exact ⟨by linarith, by show coneSum s.groups + c + _ = _; linarith⟩
      · rw [if_neg h2]
        have hcw : c = cum + w := g4.resolve_left fun e => h2 (by rw [e]; linarith)
        refine ⟨h.full, hsum, fun x e => ?_⟩
        cases e
        exact ⟨g1, by show coneSum s.groups + c = _; linarith⟩

/-- If no cone is heavier than the share of a group, no group gets more than that. -/
structure ConeFit (a : ConeArgs) (s : ConeSt) : Prop where
  fit : ∀ c ∈ s.groups, c.demand ≤ a.target
  cum : ∃ x, s.cum = some x ∧ x < a.target

theorem coneAdd_fit {g : Trig} {a : ConeArgs} {W w pr ray : ℚ} {s : ConeSt} (hT : 0 < a.target)
    (he : 0 < a.eps) (hw : 0 ≤ w) (hwt : w ≤ a.target) (h : ConeInv a W s) (hf : ConeFit a s) :
    ConeFit a (coneAdd g a w pr ray s) := by
  unfold coneAdd
  dsimp only
  obtain ⟨cum, hc, hlt⟩ := hf.cum
  obtain ⟨h0, h1⟩ := h.cum cum hc
  rw [hc]
  dsimp only
  cases hs : coneShare a cum w with
  | none =>
    exfalso
    unfold coneShare at hs
    by_cases h1 : w ≠ 0
    · rw [if_pos h1] at hs; cases hs
    · rw [if_neg h1, if_pos (by simp; exact Or.inr (by linarith))] at hs; cases hs
  | some p =>
    obtain ⟨frac, c⟩ := p
    obtain ⟨g1, g2, g3, g5, g4⟩ := coneShare_spec hT.le hw h0 hs
    obtain ⟨g6, g7⟩ := g5 hlt hwt
    dsimp only
    by_cases h2 : a.target - c < a.eps
    · rw [if_pos h2]
      refine ⟨fun x hx => ?_, _, rfl, by rw [g3]; exact g7⟩
      rcases List.mem_append.1 hx with hx | hx
      · exact hf.fit x hx
      · rw [List.mem_singleton.1 hx]; exact g6
    · rw [if_neg h2]
      exact ⟨hf.fit, _, rfl, by linarith⟩

theorem coneStep_i (g : Trig) (a : ConeArgs) (s : ConeSt) (e : ℚ × ℚ × ℕ) :
    (coneStep g a s e).i = e.2.2 ∧ ∃ r, (coneStep g a s e).ray = some r := ⟨rfl, _, rfl⟩

theorem coneInv_mono {a : ConeArgs} {W : ℚ} {s t : ConeSt} (h : ConeInv a W s) (h1 : t.groups = s.groups) (h2 : t.cum = s.cum) :
    ConeInv a W t := ⟨h1 ▸ h.full, h1 ▸ h.sum, fun x hx => h1 ▸ h.cum x (h2 ▸ hx)⟩

/-- The loop over the rest of the customers. -/
theorem coneFold_inv {g : Trig} {a : ConeArgs} (hT : 0 ≤ a.target) (he : 0 < a.eps) : ∀ (l : List (ℚ × ℚ × ℕ)) {W : ℚ} {s : ConeSt},
    (∃ r, s.ray = some r) → (∀ x ∈ s.i :: l.map (·.2.2), ∀ y ∈ l.map (·.2.2), 0 ≤ a.weight x y) → ConeInv a W s →
    ConeInv a (W + cost a.weight (s.i :: l.map (·.2.2))) (l.foldl (coneStep g a) s) ∧
    (0 < a.target → (∀ x ∈ s.i :: l.map (·.2.2), ∀ y ∈ l.map (·.2.2), a.weight x y ≤ a.target) → ConeFit a s →
      ConeFit a (l.foldl (coneStep g a) s)) := by
  intro l
  induction l with
  | nil => intro W s _ _ h; simpa using h
  | cons e l ih =>
    intro W s hr hw h
    obtain ⟨r, hr⟩ := hr
    have hw0 : 0 ≤ a.weight s.i e.2.2 := hw _ (by simp) _ (by simp)
    have h1 : ConeInv a (W + a.weight s.i e.2.2) (coneStep g a s e) := by
      refine coneInv_mono (coneAdd_inv (g := g) (pr := r) (ray := bisectAngle g s.phi (if e.1 < s.phi then e.1 + 2 * g.pi else e.1) (1 / 2))
        hT he hw0 h) ?_ ?_ <;> simp [coneStep, hr]
    obtain ⟨h2, h3⟩ := ih (s := coneStep g a s e) (coneStep_i g a s e).2 (fun x hx y hy => hw x (by
      rw [(coneStep_i g a s e).1] at hx
      exact List.mem_cons_of_mem _ hx) y (by simp only [List.map_cons]; exact List.mem_cons_of_mem _ hy)) h1
    refine ⟨?_, fun hT' hle hf => ?_⟩
    · have : W + cost a.weight (s.i :: (e :: l).map (·.2.2)) =
          W + a.weight s.i e.2.2 + cost a.weight ((coneStep g a s e).i :: l.map (·.2.2)) := by
        rw [(coneStep_i g a s e).1, List.map_cons, cost_cons_cons]; ring
      rw [this]
      exact h2
    · refine h3 hT' (fun x hx y hy => hle x (by
        rw [(coneStep_i g a s e).1] at hx
        exact List.mem_cons_of_mem _ hx) y (by simp only [List.map_cons]; exact List.mem_cons_of_mem _ hy)) ?_
      have h4 := coneAdd_fit (g := g) (pr := r) (ray := bisectAngle g s.phi (if e.1 < s.phi then e.1 + 2 * g.pi else e.1) (1 / 2))
        hT' he hw0 (hle _ (by simp) _ (by simp)) h hf
      refine ⟨fun c hc => h4.fit c ?_, ?_⟩
      · simpa [coneStep, hr] using hc
      · obtain ⟨x, hx, hlt⟩ := h4.cum
        exact ⟨x, by simpa [coneStep, hr] using hx, hlt⟩

/-! ## What is to be shared -/

theorem cost_nonneg_mem {w : ℕ → ℕ → ℚ} : ∀ l : List ℕ, (∀ x ∈ l, ∀ y ∈ l, 0 ≤ w x y) → 0 ≤ cost w l
  | [], _ => le_refl _
  | [_], _ => le_refl _
  | a :: b :: t, h => by
    rw [cost_cons_cons]
    have h1 := h a (by simp) b (by simp)
    have h2 := cost_nonneg_mem (b :: t) fun x hx y hy => h x (List.mem_cons_of_mem _ hx) y (List.mem_cons_of_mem _ hy)
    linarith

/-- A round trip can start anywhere. -/
theorem cost_rot (w : ℕ → ℕ → ℚ) {l : List ℕ} {t : ℕ} (ht : t < l.length) :
    cost w (l.drop t ++ l.take (t + 1)) = cost w (l ++ l.take 1) := by
  have hb : l.drop t = l[t] :: l.drop (t + 1) := List.drop_eq_getElem_cons ht
  have ha : l.take (t + 1) = l.take t ++ [l[t]] := (List.take_concat_get' l t ht).symm
  cases hA : l.take t with
  | nil =>
    have ht0 : t = 0 := by
      rcases List.take_eq_nil_iff.1 hA with h | h
      · exact h
      · rw [h] at ht; simp at ht
    subst ht0
    simp
  | cons a0 A =>
    have h1 : l.take 1 = [a0] := by
      have h2 : (l.take t).take 1 = l.take 1 := by
        rw [List.take_take]
        congr 1
        have : t ≠ 0 := by rintro rfl; simp at hA
        omega
      rw [← h2, hA]
      rfl
    have h2 : l = (a0 :: A) ++ l[t] :: l.drop (t + 1) := by
      conv_lhs => rw [← List.take_append_drop t l]
      rw [hb, hA]
    rw [h1, ha, hA, hb]
    have e1 : cost w (l[t] :: l.drop (t + 1) ++ (a0 :: A ++ [l[t]])) =
        cost w (l[t] :: l.drop (t + 1) ++ [a0]) + cost w (a0 :: A ++ [l[t]]) :=
      cost_append_cons w (l[t] :: l.drop (t + 1)) a0 (A ++ [l[t]])
    have e2 : cost w (l ++ [a0]) = cost w (a0 :: A ++ [l[t]]) + cost w (l[t] :: l.drop (t + 1) ++ [a0]) :=
      (congrArg (fun x => cost w (x ++ [a0])) h2).trans (by
        rw [List.append_assoc]
        exact cost_append_cons w (a0 :: A) l[t] (l.drop (t + 1) ++ [a0]))
    rw [e1, e2, add_comm]

theorem cost_last (w : ℕ → ℕ → ℚ) (l : List ℕ) :
    (((l.getLast?.toList ++ l).zip l).map fun e => w e.1 e.2).sum = cost w (l ++ l.take 1) := by
  have key : ∀ (l : List ℕ) (p : ℕ), (((p :: l).zip l).map fun e => w e.1 e.2).sum = cost w (p :: l) := by
    intro l
    induction l with
    | nil => intro p; rfl
    | cons a l ih => intro p; simp only [List.zip_cons_cons, List.map_cons, List.sum_cons, ih, cost_cons_cons]
  cases l with
  | nil => rfl
  | cons a t =>
    have hne : a :: t ≠ [] := by simp
    rw [List.getLast?_eq_some_getLast hne]
    show (((_ :: (a :: t)).zip (a :: t)).map fun e => w e.1 e.2).sum = cost w ((a :: t) ++ [a])
    rw [key, cost_cons_cons]
    have h : (a :: t) ++ [a] = (a :: t).dropLast ++ [(a :: t).getLast hne, a] := by
      conv_lhs => rw [← List.dropLast_append_getLast hne]
      simp
    rw [h, cost_concat, List.dropLast_append_getLast hne, add_comm]

theorem cost_demand (d : ℕ → ℚ) (l : List ℕ) : cost (fun i _ => d i) (l ++ l.take 1) = demand d l := by
  have key : ∀ (l : List ℕ) (z : ℕ), cost (fun i _ => d i) (l ++ [z]) = demand d l := by
    intro l z
    induction l with
    | nil => rfl
    | cons a l ih =>
      cases l with
      | nil => simp
      | cons b l => rw [List.cons_append, List.cons_append, cost_cons_cons, ← List.cons_append, ih]; rfl
  cases l with
  | nil => rfl
  | cons a t => exact key (a :: t) a

/-- What the groups are made of: the target is the share of a vehicle, and the weights seen are at most what is to be shared, or all
of it if the sweep does not begin after the last customer. -/
theorem coneArgs_spec {N K t : ℕ} {D : ℕ → ℕ → ℚ} {d : ℕ → ℚ} {C : Option ℚ} {sweep : List (ℚ × ℚ × ℕ)} (hs : SweepOf N sweep)
    (hn : SweepNonneg N D d C) (hK : 1 ≤ K) (ht : t < N) (hN : 2 ≤ N) :
    (coneArgs sweep D d C N K).sweep = sweep ∧
    K * (coneArgs sweep D d C N K).target = sweepTotal N D d C sweep ∧ 0 < (coneArgs sweep D d C N K).eps ∧
    (coneArgs sweep D d C N K).eps = 1 / 10 ^ 10 ∧
    (∀ x, 1 ≤ x → x < N → ∀ y, 1 ≤ y → y < N → 0 ≤ (coneArgs sweep D d C N K).weight x y ∧
      (SweepSmall N D d C (sweepTotal N D d C sweep / K) → (coneArgs sweep D d C N K).weight x y ≤ (coneArgs sweep D d C N K).target)) ∧
    cost (coneArgs sweep D d C N K).weight ((sweep.drop t ++ sweep.take (t + 1)).map (·.2.2)) ≤ sweepTotal N D d C sweep ∧
    (t + 1 < N → (InUse C → d 0 = 0) →
      cost (coneArgs sweep D d C N K).weight ((sweep.drop t ++ sweep.take (t + 1)).map (·.2.2)) = sweepTotal N D d C sweep) := by
  have hKq : (K : ℚ) ≠ 0 := by exact_mod_cast (by omega : K ≠ 0)
  have hlen : (sweep.map (·.2.2)).length = N - 1 := by rw [hs.nodes.length_eq]; simp
  have hmem : ∀ x ∈ sweep.map (·.2.2), 1 ≤ x ∧ x < N := by
    intro x hx
    have := hs.nodes.mem_iff.1 hx
    rw [List.mem_range'_1] at this
    omega
  have hrot : ∀ w : ℕ → ℕ → ℚ, (∀ x, 1 ≤ x → x < N → ∀ y, 1 ≤ y → y < N → 0 ≤ w x y) →
      cost w ((sweep.drop t ++ sweep.take (t + 1)).map (·.2.2)) ≤ cost w (sweep.map (·.2.2) ++ (sweep.map (·.2.2)).take 1) ∧
      (t + 1 < N → cost w ((sweep.drop t ++ sweep.take (t + 1)).map (·.2.2)) =
        cost w (sweep.map (·.2.2) ++ (sweep.map (·.2.2)).take 1)) := by
    intro w hw
    rw [List.map_append, List.map_drop, List.map_take]
    by_cases h : t + 1 < N
    · rw [cost_rot w (by omega)]
      exact ⟨le_refl _, fun _ => rfl⟩
    · refine ⟨?_, fun h' => absurd h' h⟩
      rw [List.drop_eq_nil_of_le (by omega), List.take_of_length_le (by omega), List.nil_append]
      cases e : (sweep.map (·.2.2)) with
      | nil => rfl
      | cons a l =>
        show _ ≤ cost w ((a :: l) ++ [a])
        have hne : a :: l ≠ [] := by simp
        have h2 : (a :: l) ++ [a] = (a :: l).dropLast ++ [(a :: l).getLast hne, a] := by
          conv_lhs => rw [← List.dropLast_append_getLast hne]
          simp
        rw [h2, cost_concat, List.dropLast_append_getLast hne]
        have h3 := hmem ((a :: l).getLast hne) (by rw [e]; exact List.getLast_mem hne)
        have h4 := hmem a (by rw [e]; simp)
        have := hw _ h3.1 h3.2 a h4.1 h4.2
        linarith
  have heps : (0 : ℚ) < 1 / 10 ^ 10 := by norm_num
  by_cases hC : truthy C = true
  · have hu := truthy_iff.1 hC
    obtain ⟨c, hc, hc0⟩ := hu
    have hno : ¬ (C = none ∨ C = some 0) := by rw [hc]; simp [hc0]
    have htot : sweepTotal N D d C sweep = demand d (List.range N) := if_neg hno
    have hd := hn.1 ⟨c, hc, hc0⟩
    have hr : List.range N = 0 :: List.range' 1 (N - 1) := by
      obtain ⟨n, rfl⟩ : ∃ n, N = n + 1 := ⟨N - 1, by omega⟩
      rw [List.range_eq_range', List.range'_succ]; rfl
    have hdem : demand d (sweep.map (·.2.2)) + d 0 = demand d (List.range N) := by
      rw [demand_perm d hs.nodes, hr, demand_cons, add_comm]
    obtain ⟨r1, r2⟩ := hrot (fun i _ => d i) fun x _ hx _ _ _ => hd x hx
    rw [cost_demand] at r1 r2
    have htar : (coneArgs sweep D d C N K).target = demand d (List.range N) / K := by
      unfold coneArgs
      rw [if_pos hC, demand_eq_sum, hc]
      show _ / (K * c) * c = _
      field_simp
    have hwt : (coneArgs sweep D d C N K).weight = fun i _ => d i := by unfold coneArgs; rw [if_pos hC]
    have heq : (coneArgs sweep D d C N K).eps = 1 / 10 ^ 10 := by unfold coneArgs; rw [if_pos hC]; rfl
    have hsw : (coneArgs sweep D d C N K).sweep = sweep := by unfold coneArgs; rw [if_pos hC]
    rw [htar, hwt, heq, htot]
    refine ⟨hsw, by field_simp, heps, rfl, fun x h1 h2 y _ _ => ⟨hd x h2, fun hsm => hsm.1 ⟨c, hc, hc0⟩ x h1 h2⟩, ?_, fun h1 h2 => ?_⟩
    · have := hd 0 (by omega)
      linarith
    · rw [r2 h1, ← hdem, h2 ⟨c, hc, hc0⟩, add_zero]
  · have hu : ¬ InUse C := fun h => hC (truthy_iff.2 h)
    have hno : C = none ∨ C = some 0 := by
      cases C with
      | none => exact Or.inl rfl
      | some c => exact Or.inr (by by_contra h; exact hu ⟨c, rfl, fun e => h (by rw [e])⟩)
    have htot : sweepTotal N D d C sweep = cost D (sweep.map (·.2.2) ++ (sweep.map (·.2.2)).take 1) := if_pos hno
    have hd := hn.2 hu
    obtain ⟨r1, r2⟩ := hrot D fun x _ hx y _ hy => hd x hx y hy
    have htar : (coneArgs sweep D d C N K).target = cost D (sweep.map (·.2.2) ++ (sweep.map (·.2.2)).take 1) / K := by
      unfold coneArgs
      rw [if_neg hC, ← cost_last]
    have hwt : (coneArgs sweep D d C N K).weight = D := by unfold coneArgs; rw [if_neg hC]
    have heq : (coneArgs sweep D d C N K).eps = 1 / 10 ^ 10 := by unfold coneArgs; rw [if_neg hC]; rfl
    have hsw : (coneArgs sweep D d C N K).sweep = sweep := by unfold coneArgs; rw [if_neg hC]
    rw [htar, hwt, heq, htot]
    exact ⟨hsw, by field_simp, heps, rfl, fun x h1 h2 y h3 h4 => ⟨hd x h2 y h4, fun hsm => hsm.2 hu x h1 h2 y h3 h4⟩, r1, fun h1 _ => r2 h1⟩

/-! ## The groups -/

/-- The customers of the groups come from the sweep and have no negative weights. -/
structure ConeNodes (P : ℚ × ℕ × ℚ → Prop) (s : ConeSt) : Prop where
  groups : ∀ c ∈ s.groups, ∀ x ∈ c.nodes, P x
  nodes : ∀ x ∈ s.nodes, P x

theorem coneAdd_nodes {g : Trig} {a : ConeArgs} {w pr ray : ℚ} {s : ConeSt} {P : ℚ × ℕ × ℚ → Prop} (h : ConeNodes P s)
    (hx : P (s.rho, s.i, w)) : ConeNodes P (coneAdd g a w pr ray s) := by
  have hn : ∀ x ∈ s.nodes ++ [(s.rho, s.i, w)], P x := by
    intro x hx'
    rcases List.mem_append.1 hx' with h1 | h1
    · exact h.nodes x h1
    · rw [List.mem_singleton.1 h1]; exact hx
  unfold coneAdd
  dsimp only
  split
  · exact ⟨h.groups, hn⟩
  · split_ifs
    · refine ⟨fun c hc => ?_, fun x h1 => by rw [List.mem_singleton.1 h1]; exact hx⟩
      rcases List.mem_append.1 hc with h1 | h1
      · exact h.groups c h1
      · rw [List.mem_singleton.1 h1]; exact hn
    · refine ⟨fun c hc => ?_, fun x h1 => by cases h1⟩
      rcases List.mem_append.1 hc with h1 | h1
      · exact h.groups c h1
      · rw [List.mem_singleton.1 h1]; exact hn
    · exact ⟨h.groups, hn⟩

theorem coneFold_nodes {g : Trig} {a : ConeArgs} {R : ℚ → Prop} : ∀ (l : List (ℚ × ℚ × ℕ)) {s : ConeSt},
    (∃ r, s.ray = some r) → (∀ x ∈ s.i :: l.map (·.2.2), ∀ y ∈ l.map (·.2.2), 0 ≤ a.weight x y) → R s.rho → (∀ e ∈ l, R e.2.1) →
    ConeNodes (fun x => R x.1 ∧ 0 ≤ x.2.2) s → ConeNodes (fun x => R x.1 ∧ 0 ≤ x.2.2) (l.foldl (coneStep g a) s) := by
  intro l
  induction l with
  | nil => intro s _ _ _ _ h; exact h
  | cons e l ih =>
    intro s hr hw hR hl h
    obtain ⟨r, hr⟩ := hr
    have h1 := coneAdd_nodes (g := g) (a := a) (w := a.weight s.i e.2.2) (pr := r)
      (ray := bisectAngle g s.phi (if e.1 < s.phi then e.1 + 2 * g.pi else e.1) (1 / 2)) h ⟨hR, hw _ (by simp) _ (by simp)⟩
    refine ih (s := coneStep g a s e) (coneStep_i g a s e).2 (fun x hx y hy => hw x (by
      rw [(coneStep_i g a s e).1] at hx
      exact List.mem_cons_of_mem _ hx) y (by simp only [List.map_cons]; exact List.mem_cons_of_mem _ hy))
      (hl e (by simp)) (fun x hx => hl x (List.mem_cons_of_mem _ hx)) ?_
    exact ⟨fun c hc => h1.groups c (by simpa [coneStep, hr] using hc), fun x hx => h1.nodes x (by simpa [coneStep, hr] using hx)⟩

theorem growArc_near {target R : ℚ} : ∀ (l : List (ℚ × ℕ × ℚ)) (wt rho : ℚ), (∀ x ∈ l, (0 ≤ x.1 ∧ x.1 ≤ R) ∧ 0 ≤ x.2.2) →
    wt ≤ target → 0 ≤ rho → rho ≤ R → 0 ≤ growArc target l wt rho ∧ growArc target l wt rho ≤ R := by
  intro l
  induction l with
  | nil => intro wt rho _ _ h1 h2; exact ⟨h1, h2⟩
  | cons x l ih =>
    intro wt rho hl hwt h1 h2
    obtain ⟨cr, ci, cwt⟩ := x
    obtain ⟨⟨h3, h4⟩, h5⟩ := hl (cr, ci, cwt) (by simp)
    simp only at h3 h4 h5
    unfold growArc
    by_cases h : target < wt + cwt
    · rw [if_pos h]
      have hc : 0 < cwt := by linarith
      have hq0 : 0 ≤ (target - wt) / cwt := div_nonneg (by linarith) h5
      have hq1 : (target - wt) / cwt ≤ 1 := by rw [div_le_one hc]; linarith
      constructor
      · nlinarith
      · nlinarith
    · rw [if_neg h]
      exact ih _ _ (fun y hy => hl y (List.mem_cons_of_mem _ hy)) (not_lt.1 h) h3 h4

theorem coneSeed_near {g : Trig} {depot : ℚ × ℚ} {target R : ℚ} {c : Cone} (hT : 0 ≤ target) (hR : 0 ≤ R)
    (h : ∀ x ∈ c.nodes, (0 ≤ x.1 ∧ x.1 ≤ R) ∧ 0 ≤ x.2.2) : ∃ rho phi, coneSeed g depot target c =
      (depot.1 + rho * g.cos phi, depot.2 + rho * g.sin phi) ∧ 0 ≤ rho ∧ rho ≤ R :=
  ⟨_, _, rfl, growArc_near _ _ _ (fun x hx => h x ((pySort_perm coneLe c.nodes).mem_iff.1 hx)) (by linarith) (le_refl _) hR⟩

theorem exists_far : ∀ l : List (ℚ × ℚ × ℕ), l ≠ [] → ∃ e ∈ l, ∀ x ∈ l, x.2.1 ≤ e.2.1
  | [], h => absurd rfl h
  | [a], _ => ⟨a, by simp, by simp⟩
  | a :: b :: l, _ => by
    obtain ⟨e, he, h⟩ := exists_far (b :: l) (by simp)
    by_cases hc : a.2.1 ≤ e.2.1
    · exact ⟨e, List.mem_cons_of_mem _ he, fun x hx => by
        rcases List.mem_cons.1 hx with rfl | hx
        · exact hc
        · exact h x hx⟩
    · exact ⟨a, by simp, fun x hx => by
        rcases List.mem_cons.1 hx with rfl | hx
        · exact le_refl _
        · exact (h x hx).trans (not_le.1 hc).le⟩

/-- The groups: not more than the vehicles, as many if no customer is too large. -/
theorem coneGroups_spec {g : Trig} {N K t : ℕ} {D : ℕ → ℕ → ℚ} {d : ℕ → ℚ} {C : Option ℚ} {sweep : List (ℚ × ℚ × ℕ)}
    (hs : SweepOf N sweep) (hn : SweepNonneg N D d C) (hK : 1 ≤ K) (ht : t < N) (hN : 2 ≤ N)
    (hbig : K * (K + 1) / 10 ^ 10 ≤ sweepTotal N D d C sweep) :
    ∃ cones, coneGroups g (coneArgs sweep D d C N K) t = .ok cones ∧ cones.length ≤ K ∧
      (t + 1 < N → (InUse C → d 0 = 0) → SweepSmall N D d C (sweepTotal N D d C sweep / K) → cones.length = K) ∧
      ∀ c ∈ cones, ∀ x ∈ c.nodes, (∃ e ∈ sweep, x.1 = e.2.1) ∧ 0 ≤ x.2.2 := by
  obtain ⟨a1, a2, a3, a4, a5, a6, a7⟩ := coneArgs_spec hs hn hK ht hN
  generalize coneArgs sweep D d C N K = a at *
  subst a1
  have hKq : (1 : ℚ) ≤ K := by exact_mod_cast hK
  have hT : (K + 1) * a.eps ≤ a.target := by
    rw [a4]
    rw [← a2] at hbig
    have : (K : ℚ) * ((K + 1) * (1 / 10 ^ 10)) ≤ K * a.target := by
      refine le_trans (le_of_eq ?_) hbig
      ring
    exact le_of_mul_le_mul_left this (by linarith)
  have hT0 : 0 < a.target := lt_of_lt_of_le (by positivity) hT
  have hlen : a.sweep.length = N - 1 := by have := hs.nodes.length_eq; simpa using this
  have hmem : ∀ x ∈ a.sweep, 1 ≤ x.2.2 ∧ x.2.2 < N := by
    intro x hx
    have := hs.nodes.mem_iff.1 (List.mem_map.2 ⟨x, hx, rfl⟩)
    rw [List.mem_range'_1] at this
    omega
  have hl : ∀ e ∈ a.sweep.drop t ++ a.sweep.take (t + 1), e ∈ a.sweep := by
    intro e he
    rcases List.mem_append.1 he with h | h
    · exact List.mem_of_mem_drop h
    · exact List.mem_of_mem_take h
  unfold coneGroups
  obtain ⟨phi, hphi⟩ : ∃ phi, (if t = 0 then (idxNeg a.sweep 1).map (fun e => e.1 - 2 * g.pi) else
      (idx a.sweep (t - 1)).map (·.1)) = Except.ok phi := by
    by_cases h0 : t = 0
    · rw [if_pos h0]
      unfold idxNeg idx
      rw [if_neg (by omega), List.getElem?_eq_getElem (by omega)]
      exact ⟨_, rfl⟩
    · rw [if_neg h0]
      unfold idx
      rw [List.getElem?_eq_getElem (by omega)]
      exact ⟨_, rfl⟩
  rw [hphi]
  dsimp only
  cases hls : a.sweep.drop t ++ a.sweep.take (t + 1) with
  | nil =>
    exfalso
    have h1 := congrArg List.length hls
    rw [List.length_append, List.length_drop, List.length_take] at h1
    simp only [List.length_nil] at h1
    omega
  | cons e l =>
    rw [hls] at hl a6 a7
    have hw : ∀ x ∈ e.2.2 :: l.map (·.2.2), ∀ y ∈ l.map (·.2.2), 0 ≤ a.weight x y ∧
        (SweepSmall N D d C (sweepTotal N D d C a.sweep / K) → a.weight x y ≤ a.target) := by
      intro x hx y hy
      have hx' : x ∈ (e :: l).map (·.2.2) := hx
      obtain ⟨u, hu, rfl⟩ := List.mem_map.1 hx'
      obtain ⟨v, hv, rfl⟩ := List.mem_map.1 hy
      have h1 := hmem u (hl u hu)
      have h2 := hmem v (hl v (List.mem_cons_of_mem _ hv))
      exact a5 _ h1.1 h1.2 _ h2.1 h2.2
    rw [List.foldl_cons]
    have hst : (coneStep g a ⟨[], 0, some 0, [], none, phi, 0, 0⟩ e).groups = [] ∧
        (coneStep g a ⟨[], 0, some 0, [], none, phi, 0, 0⟩ e).cum = some 0 ∧
        (coneStep g a ⟨[], 0, some 0, [], none, phi, 0, 0⟩ e).nodes = [] ∧
        (coneStep g a ⟨[], 0, some 0, [], none, phi, 0, 0⟩ e).rho = e.2.1 := ⟨rfl, rfl, rfl, rfl⟩
    have hray := (coneStep_i g a ⟨[], 0, some 0, [], none, phi, 0, 0⟩ e).2
    have hi := (coneStep_i g a ⟨[], 0, some 0, [], none, phi, 0, 0⟩ e).1
    generalize coneStep g a ⟨[], 0, some 0, [], none, phi, 0, 0⟩ e = s at *
    obtain ⟨s1, s2, s3, s4⟩ := hst
    have hinv : ConeInv a 0 s := ⟨by simp [s1], by simp [s1, coneSum], fun x hx => by
      rw [s2] at hx; cases hx; simp [s1, coneSum]⟩
    obtain ⟨h1, h2⟩ := coneFold_inv (g := g) hT0.le a3 l hray (by rw [hi]; exact fun x hx y hy => (hw x hx y hy).1) hinv
    have h3 := coneFold_nodes (g := g) (a := a) (R := fun r => ∃ e ∈ a.sweep, r = e.2.1) l hray
      (by rw [hi]; exact fun x hx y hy => (hw x hx y hy).1) (by rw [s4]; exact ⟨e, hl e (by simp), rfl⟩)
      (fun x hx => ⟨x, hl x (List.mem_cons_of_mem _ hx), rfl⟩) ⟨by simp [s1], by simp [s3]⟩
    rw [hi, zero_add] at h1
    have hW : cost a.weight (e.2.2 :: l.map (·.2.2)) = cost a.weight ((e :: l).map (·.2.2)) := rfl
    have hle : (l.foldl (coneStep g a) s).groups.length ≤ K := by
      by_contra hcon
      have hJ : (K : ℚ) + 1 ≤ (l.foldl (coneStep g a) s).groups.length := by exact_mod_cast (by omega : K + 1 ≤ _)
      have key : ∀ gs : List Cone, (∀ c ∈ gs, a.target - a.eps < c.demand) → gs ≠ [] →
          gs.length * (a.target - a.eps) < coneSum gs := by
        intro gs
        induction gs with
        | nil => intro _ h; exact absurd rfl h
        | cons c gs ih =>
          intro h _
          have hc := h c (by simp)
          by_cases hg : gs = []
          · subst hg; simpa [coneSum] using hc
          · have := ih (fun x hx => h x (List.mem_cons_of_mem _ hx)) hg
            simp only [coneSum, List.map_cons, List.sum_cons, List.length_cons, Nat.cast_add, Nat.cast_one] at this ⊢
            linarith
      have h4 := key _ h1.full (by intro e0; rw [e0] at hcon; simp at hcon)
      have h5 := h1.sum
      rw [hW] at h5
      have h6 : (0 : ℚ) ≤ a.target - a.eps := by nlinarith
      nlinarith
    refine ⟨_, rfl, hle, fun ht' h0 hsm => ?_, fun c hc x hx => h3.groups c hc x hx⟩
    refine le_antisymm hle ?_
    have hf := h2 hT0 (by rw [hi]; exact fun x hx y hy => (hw x hx y hy).2 hsm) ⟨by simp [s1], 0, s2, hT0⟩
    obtain ⟨x, hx, hlt⟩ := hf.cum
    have h4 := (h1.cum x hx).2
    rw [hW, a7 ht' h0, ← a2] at h4
    have key : ∀ gs : List Cone, (∀ c ∈ gs, c.demand ≤ a.target) → coneSum gs ≤ gs.length * a.target := by
      intro gs
      induction gs with
      | nil => intro _; simp [coneSum]
      | cons c gs ih =>
        intro h
        have hc := h c (by simp)
        have := ih (fun x hx => h x (List.mem_cons_of_mem _ hx))
        simp only [coneSum, List.map_cons, List.sum_cons, List.length_cons, Nat.cast_add, Nat.cast_one] at this ⊢
        linarith
    have h5 := key _ hf.fit
    by_contra hcon
    have hJ : ((l.foldl (coneStep g a) s).groups.length : ℚ) + 1 ≤ K := by exact_mod_cast (by omega : _ + 1 ≤ K)
    nlinarith

/-! ## Large demands -/

theorem largeLoop_ok {sqrt : ℚ → ℚ} {D : ℕ → ℕ → ℚ} {d : ℕ → ℚ} {C : ℚ} {N : ℕ} {large : List ℕ} :
    ∀ (n : ℕ) {rest : Bool} {seeds cands : List ℕ}, cands.Nodup → n ≤ cands.length →
    ∃ l, largeLoop sqrt D d C N large n rest seeds cands cands = .ok (seeds ++ l) ∧ l.Nodup ∧ l.length = n ∧ (∀ i ∈ l, i ∈ cands) ∧
      ∀ pre i post, l = pre ++ i :: post → ∀ j ∈ cands, j ∉ pre →
        largeScore sqrt D d C rest (seeds ++ pre) ((List.range N).filter fun i => decide (i = 0 ∨ i ∈ seeds ++ pre)) j ≤
          largeScore sqrt D d C rest (seeds ++ pre) ((List.range N).filter fun i => decide (i = 0 ∨ i ∈ seeds ++ pre)) i := by
  intro n
  induction n with
  | zero => intro rest seeds cands _ _; exact ⟨[], by simp [largeLoop], by simp, rfl, by simp, by simp⟩
  | succ n ih =>
    intro rest seeds cands hn hl
    have hne : cands ≠ [] := by rintro rfl; simp at hl
    have hemp : cands.isEmpty = false := by cases cands with | nil => exact absurd rfl hne | cons => rfl
    unfold largeLoop
    rw [hemp]
    simp only [Bool.or_false, Bool.false_eq_true, if_false]
    obtain ⟨k, w, h1, h2, hw⟩ := npArgmax_spec (l := cands.map (largeScore sqrt D d C rest seeds
      ((List.range N).filter fun i => decide (i = 0 ∨ i ∈ seeds)))) (by simpa using hne)
    rw [h1]
    dsimp only
    have hk : k < cands.length := by
      have := List.getElem?_eq_some_iff.1 h2
      obtain ⟨h3, -⟩ := this
      simpa using h3
    rw [idx_of_lt hk]
    dsimp only
    have hm : cands.filter (fun j => decide (j ≠ cands[k])) = cands.erase cands[k] := by
      rw [hn.erase_eq_filter]
      congr 1
      funext j
      simp [bne, BEq.beq]
    rw [hm]
    have hmem : cands[k] ∈ cands := List.getElem_mem hk
    obtain ⟨l, h3, h4, h5, h6, h7⟩ := ih (rest := rest) (seeds := seeds ++ [cands[k]]) (hn.erase cands[k])
      (by rw [List.length_erase_of_mem hmem]; omega)
    refine ⟨cands[k] :: l, by rw [h3]; simp, ?_, by simp [h5], ?_, ?_⟩
    · rw [List.nodup_cons]
      exact ⟨fun h => (hn.mem_erase_iff.1 (h6 _ h)).1 rfl, h4⟩
    · intro i hi
      rcases List.mem_cons.1 hi with rfl | hi
      · exact hmem
      · exact List.mem_of_mem_erase (h6 i hi)
    · intro pre i post e j hj hp
      cases pre with
      | nil =>
        injection e with e _
        subst e
        rw [List.append_nil]
        have h8 : w = largeScore sqrt D d C rest seeds ((List.range N).filter fun i => decide (i = 0 ∨ i ∈ seeds)) cands[k] := by
          rw [List.getElem?_map, List.getElem?_eq_getElem hk] at h2
          simpa using h2.symm
        rw [← h8]
        exact hw _ (List.mem_map_of_mem hj)
      | cons p pre =>
        injection e with e1 e2
        subst e1
        have h9 := h7 pre i post e2 j (hn.mem_erase_iff.2 ⟨fun h => hp (by simp [h]), hj⟩) fun h => hp (by simp [h])
        simpa only [List.append_assoc, List.cons_append, List.nil_append] using h9

end Verif
