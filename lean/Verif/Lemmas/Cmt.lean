import Verif.Model.Cmt
import Verif.Spec.Construct
import Verif.Lemmas.NearestNeighborLoop
import Verif.Lemmas.CheapestInsertion

/-! # Lemmas about the two phase heuristic -/

namespace Verif
open Spec

/-- The record of a route is right: a path from the depot, its cost when closed, its demand, and the limits
hold (given `P`). -/
structure CmtOk (D : ℕ → ℕ → ℚ) (d : ℕ → ℚ) (C L : Option ℚ) (P : Prop) (t : List ℕ) (r : CmtRoute) : Prop where
  shape : r.route = 0 :: t
  ne : t ≠ []
  cost : r.cost = cost D (wrap t)
  demand : truthy C = true → r.demand = demand d t
  ok : P → RouteOk D d C L t

theorem within_of_not_truthy {c : Option ℚ} (h : truthy c ≠ true) (e x : ℚ) : Within c e x := by
  intro v hv h0
  exfalso
  apply h
  subst hv
  simp [truthy, h0]

theorem dropLast_wrap (u : List ℕ) : (wrap u).dropLast = 0 :: u := by
  unfold wrap
  rw [← List.cons_append, List.dropLast_concat]

theorem cmtStart_ok {N : ℕ} {D : ℕ → ℕ → ℚ} {d : ℕ → ℚ} {C L : Option ℚ} {P : Prop}
    (hP : P → Serviceable N D d C L) {k : ℕ} (h1 : 1 ≤ k) (h2 : k < N) :
    CmtOk D d C L P [k] (cmtStart D d C k) where
  shape := rfl
  ne := by simp
  cost := by simp [cmtStart, wrap, Spec.cost]
  demand := fun h => by simp [cmtStart, h, Spec.demand]
  ok := fun p => hP p k h1 h2

theorem cmtInsert_spec {D : ℕ → ℕ → ℚ} {d : ℕ → ℚ} {C L : Option ℚ} {P : Prop} {tsp : CmtTsp}
    (ht : TspRoutine D tsp) {t : List ℕ} {r : CmtRoute} (h : CmtOk D d C L P t r) {i : ℕ}
    (hn : (0 :: (t ++ [i])).Nodup) :
    ∃ out, cmtInsert D d C L tsp r i = .ok out ∧
      ∀ r', out = .accepted r' → ∃ t', t'.Perm (t ++ [i]) ∧ CmtOk D d C L P t' r' := by
  unfold cmtInsert
  by_cases h1 : exceeds C C_EPS (r.demand + d i) = true
  · rw [if_pos h1]
    exact ⟨_, rfl, fun r' hr => by cases hr⟩
  rw [if_neg h1]
  obtain ⟨z, hz⟩ : ∃ z, t.getLast? = some z := by
    cases hl : t.getLast? with
    | none => exact absurd (List.getLast?_eq_none_iff.1 hl) h.ne
    | some z => exact ⟨z, rfl⟩
  obtain ⟨a, ha⟩ : ∃ a, t.head? = some a := by
    cases hl : t.head? with
    | none => exact absurd (List.head?_eq_none_iff.1 hl) h.ne
    | some z => exact ⟨z, rfl⟩
  rw [show r.route.getLast? = some z by rw [h.shape, List.getLast?_cons, hz]; rfl]
  simp only
  have hub : r.cost - D z 0 + D z i + D i 0 = cost D (wrap (t ++ [i])) := by
    rw [h.cost, (wrap_extended ha hz i).2, cost_wrap_split ha hz]
    ring
  have hdem : truthy C = true → (if truthy C = true then r.demand + d i else r.demand) = demand d (t ++ [i]) := by
    intro hC
    rw [if_pos hC, h.demand hC, demand_append]
    simp [demand]
  have hcap : P → Within C C_EPS (demand d (t ++ [i])) := by
    intro _
    by_cases hC : truthy C = true
    · rw [← exceeds_iff, ← hdem hC, if_pos hC]
      simpa using h1
    · exact within_of_not_truthy hC _ _
  by_cases h2 : exceeds L S_EPS (r.cost - D z 0 + D z i + D i 0) = true
  · rw [if_pos h2]
    obtain ⟨u, hu, he⟩ := ht (t ++ [i]) (by simp) hn
    rw [show r.route ++ [i] = 0 :: (t ++ [i]) by rw [h.shape]; rfl, he]
    by_cases h3 : exceeds L S_EPS (cost D (wrap u)) = true
    · rw [if_pos h3]
      exact ⟨_, rfl, fun r' hr => by cases hr⟩
    · rw [if_neg h3]
      refine ⟨_, rfl, fun r' hr => ?_⟩
      injection hr with hr
      subst hr
      refine ⟨u, hu, ?_, ?_, rfl, ?_, fun p => ⟨?_, ?_⟩⟩
      · exact dropLast_wrap u
      · intro e; rw [e] at hu; simpa using hu.length_eq
      · intro hC; rw [hdem hC, demand_perm d hu]
      · rw [demand_perm d hu]; exact hcap p
      · rw [← exceeds_iff]; simpa using h3
  · rw [if_neg h2]
    refine ⟨_, rfl, fun r' hr => ?_⟩
    injection hr with hr
    subst hr
    refine ⟨t ++ [i], List.Perm.refl _, ?_, by simp, hub, hdem, fun p => ⟨hcap p, ?_⟩⟩
    · simp only [h.shape]
      rw [show (0 :: t) ++ [i, 0] = ((0 :: t) ++ [i]) ++ [0] by simp, List.dropLast_concat]
      rfl
    · rw [← exceeds_iff, ← hub]; simpa using h2

theorem cmtRemove_mem {un : List ℕ} {i : ℕ} (h : i ∈ un) : cmtRemove un i = .ok (un.erase i) := by
  unfold cmtRemove
  rw [if_pos h]

theorem cmtFill_spec {D : ℕ → ℕ → ℚ} {d : ℕ → ℚ} {C L : Option ℚ} {P : Prop} {tsp : CmtTsp}
    (ht : TspRoutine D tsp) (is : List ℕ) {t : List ℕ} {r : CmtRoute} {un : List ℕ} (h : CmtOk D d C L P t r)
    (hn : (0 :: (t ++ un)).Nodup) (his : ∀ i ∈ is, i ∈ un) (hid : is.Nodup) :
    ∃ r' un' t', cmtFill D d C L tsp is r un = .ok (r', un') ∧ CmtOk D d C L P t' r' ∧
      (t' ++ un').Perm (t ++ un) ∧ ∀ x ∈ t, x ∈ t' := by
  induction is generalizing t r un with
  | nil => exact ⟨r, un, t, rfl, h, List.Perm.refl _, fun x hx => hx⟩
  | cons i is ih =>
    have hi := his i (by simp)
    have hsub : (t ++ un).Perm (t ++ [i] ++ un.erase i) := by
      have := List.perm_cons_erase hi
      refine (this.append_left t).trans ?_
      simp
    have hn' : (0 :: (t ++ [i] ++ un.erase i)).Nodup := (hsub.cons 0).nodup_iff.1 hn
    have hn1 : (0 :: (t ++ [i])).Nodup := by
      rw [← List.cons_append] at hn'
      exact (List.nodup_append.1 hn').1
    obtain ⟨out, h1, h2⟩ := cmtInsert_spec (L := L) ht h hn1
    obtain ⟨hd1, hd2⟩ := List.nodup_cons.1 hid
    unfold cmtFill
    rw [h1]
    cases out with
    | overC => exact ih h hn (fun j hj => his j (by simp [hj])) hd2
    | overL => exact ih h hn (fun j hj => his j (by simp [hj])) hd2
    | accepted r' =>
      simp only
      rw [cmtRemove_mem hi]
      simp only
      obtain ⟨t1, g1, g2⟩ := h2 r' rfl
      have hp : (t1 ++ un.erase i).Perm (t ++ un) := (g1.append_right _).trans hsub.symm
      obtain ⟨r2, un2, t2, k1, k2, k3, k4⟩ := ih g2 ((hp.cons 0).nodup_iff.2 hn)
        (fun j hj => by
          have hne : j ≠ i := fun e => hd1 (e ▸ hj)
          exact (List.mem_erase_of_ne hne).2 (his j (by simp [hj]))) hd2
      exact ⟨r2, un2, t2, k1, k2, k3.trans hp, fun x hx => k4 x (g1.mem_iff.2 (by simp [hx]))⟩

/-- The finished route: its customers, its true cost, and the limits hold if the routine is no worse than the
order it is given. -/
theorem cmtFinish_spec {D : ℕ → ℕ → ℚ} {d : ℕ → ℚ} {C L : Option ℚ} {P : Prop} {tsp : CmtTsp}
    (ht : TspRoutine D tsp) {t : List ℕ} {r : CmtRoute} (h : CmtOk D d C L P t r) (hn : (0 :: t).Nodup) :
    ∃ u, u.Perm t ∧ cmtFinish tsp r = (0 :: u, cost D (wrap u)) ∧ (P → NoWorse D tsp → RouteOk D d C L u) := by
  unfold cmtFinish
  by_cases hu : r.updated = true
  · rw [if_pos hu]
    exact ⟨t, List.Perm.refl _, by rw [h.shape, h.cost], fun p _ => h.ok p⟩
  · rw [if_neg hu]
    obtain ⟨u, g1, g2⟩ := ht t h.ne hn
    rw [h.shape, g2]
    refine ⟨u, g1, by rw [dropLast_wrap], fun p hw => ⟨?_, ?_⟩⟩
    · rw [demand_perm d g1]; exact (h.ok p).1
    · have := hw t h.ne hn
      rw [g2] at this
      intro c hc h0
      exact this.trans ((h.ok p).2 c hc h0)

theorem cmtSavings_perm (D : ℕ → ℕ → ℚ) (lam : ℚ) (k : ℕ) (un : List ℕ) : (cmtSavings D lam k un).Perm un := by
  unfold cmtSavings
  refine ((pySort_perm _ _).map _).trans ?_
  rw [List.map_map]
  exact List.Perm.of_eq (by simp [Function.comp_def])

theorem gmArgmin_mem {key : ℕ → ℚ} {l : List ℕ} {n : ℕ} (h : gmArgmin key l = some n) : n ∈ l := by
  induction l with
  | nil => cases h
  | cons a t ih =>
    unfold gmArgmin at h
    cases ht : gmArgmin key t with
    | none =>
      rw [ht] at h
      simp only [Option.some.injEq] at h
      simp [h]
    | some b =>
      rw [ht] at h
      simp only at h
      split_ifs at h <;> simp only [Option.some.injEq] at h
      · simp [h]
      · subst h; exact List.mem_cons_of_mem _ (ih ht)

theorem gmArgmin_some (key : ℕ → ℚ) {l : List ℕ} (h : l ≠ []) : ∃ n, gmArgmin key l = some n := by
  cases l with
  | nil => exact absurd rfl h
  | cons a t =>
    unfold gmArgmin
    cases gmArgmin key t with
    | none => exact ⟨a, rfl⟩
    | some b => simp only; split_ifs <;> exact ⟨_, rfl⟩

theorem cmtSeed_spec (D : ℕ → ℕ → ℚ) (d : ℕ → ℚ) {m : CmtSeed} (hm : m ≠ .other) {un : List ℕ} (hu : un ≠ []) :
    ∃ k ∈ un, cmtSeed D d m un = .ok k := by
  unfold cmtSeed
  cases m with
  | first =>
    cases un with
    | nil => exact absurd rfl hu
    | cons a t => exact ⟨a, by simp, rfl⟩
  | farthest =>
    obtain ⟨n, hn⟩ := gmArgmin_some (fun n => - D 0 n) hu
    exact ⟨n, gmArgmin_mem hn, by simp only [hn]⟩
  | closest =>
    obtain ⟨n, hn⟩ := gmArgmin_some (fun n => D 0 n) hu
    exact ⟨n, gmArgmin_mem hn, by simp only [hn]⟩
  | biggest =>
    obtain ⟨n, hn⟩ := gmArgmin_some (fun n => - d n) hu
    exact ⟨n, gmArgmin_mem hn, by simp only [hn]⟩
  | other => exact absurd rfl hm

/-! ## The first phase -/

/-- The invariant of the first phase, with the customers of the routes made so far. -/
structure CmtOneInv (N : ℕ) (D : ℕ → ℕ → ℚ) (d : ℕ → ℚ) (C L : Option ℚ) (P : Prop) (us : List (List ℕ)) (s : CmtOne) :
    Prop where
  sol : s.sol = us.flatMap fun u => 0 :: u
  perm : (us.flatten ++ s.unrouted).Perm (List.range' 1 (N - 1))
  total : s.total = (us.map fun u => cost D (wrap u)).sum
  ne : ∀ u ∈ us, u ≠ []
  ok : P → ∀ u ∈ us, RouteOk D d C L u
  len : s.seeds.length = us.length
  nodup : s.seeds.Nodup
  sub : ∀ k ∈ s.seeds, k ∈ us.flatten

theorem cmtOneStep_spec {N : ℕ} {D : ℕ → ℕ → ℚ} {d : ℕ → ℚ} {C L : Option ℚ} {P : Prop} {tsp : CmtTsp}
    (ht : TspRoutine D tsp) (hP : P → Serviceable N D d C L) (hW : P → NoWorse D tsp) (lam : ℚ) {m : CmtSeed}
    (hm : m ≠ .other) {us : List (List ℕ)} {s : CmtOne} (h : CmtOneInv N D d C L P us s) (hu : s.unrouted ≠ []) :
    ∃ u s', cmtOneStep D d C L tsp lam m s = .ok s' ∧ CmtOneInv N D d C L P (us ++ [u]) s' ∧
      s'.unrouted.length < s.unrouted.length := by
  obtain ⟨k, hk, hs⟩ := cmtSeed_spec D d hm hu
  have hnd : (us.flatten ++ s.unrouted).Nodup := h.perm.nodup_iff.2 List.nodup_range'
  obtain ⟨n1, n2, n3⟩ := List.nodup_append.1 hnd
  have hrng : ∀ x, x ∈ us.flatten ∨ x ∈ s.unrouted → 1 ≤ x ∧ x < N := by
    intro x hx
    have := h.perm.mem_iff.1 (List.mem_append.2 hx)
    rw [List.mem_range'_1] at this
    omega
  have hke := List.perm_cons_erase hk
  have hn0 : (0 :: ([k] ++ s.unrouted.erase k)).Nodup := by
    refine List.nodup_cons.2 ⟨fun hx => ?_, ?_⟩
    · have := hrng 0 (.inr (hke.mem_iff.2 hx)); omega
    · exact hke.nodup_iff.1 n2
  have hsv := cmtSavings_perm D lam k (s.unrouted.erase k)
  obtain ⟨r, un', t, f1, f2, f3, f4⟩ := cmtFill_spec (L := L) ht (cmtSavings D lam k (s.unrouted.erase k))
    (cmtStart_ok (C := C) (L := L) hP (hrng k (.inr hk)).1 (hrng k (.inr hk)).2) hn0
    (fun i hi => hsv.mem_iff.1 hi) (hsv.nodup_iff.2 (List.Nodup.erase _ n2))
  have htn : (0 :: t).Nodup := by
    have := (f3.cons 0).nodup_iff.2 hn0
    rw [← List.cons_append] at this
    exact (List.nodup_append.1 this).1
  obtain ⟨u, u1, u2, u3⟩ := cmtFinish_spec ht f2 htn
  have hperm : (u ++ un').Perm s.unrouted := ((u1.append_right _).trans f3).trans hke.symm
  have hkt : k ∈ u := u1.mem_iff.2 (f4 k (by simp))
  refine ⟨u, ⟨un', s.seeds ++ [k], s.sol ++ (cmtFinish tsp r).1, s.total + (cmtFinish tsp r).2⟩, ?_, ?_, ?_⟩
  · unfold cmtOneStep
    rw [hs]; simp only
    rw [cmtRemove_mem hk]; simp only
    rw [f1]
  · refine ⟨?_, ?_, ?_, ?_, ?_, ?_, ?_, ?_⟩
    · simp only [u2, h.sol, List.flatMap_append, List.flatMap_cons, List.flatMap_nil, List.append_nil]
    · simp only [List.flatten_append, List.flatten_cons, List.flatten_nil, List.append_nil, List.append_assoc]
      exact (hperm.append_left _).trans h.perm
    · simp only [u2, h.total, List.map_append, List.sum_append, List.map_cons, List.map_nil, List.sum_cons,
        List.sum_nil, add_zero]
    · intro v hv
      rcases List.mem_append.1 hv with hv | hv
      · exact h.ne v hv
      · rw [List.mem_singleton.1 hv]
        intro e; rw [e] at hkt; cases hkt
    · intro p v hv
      rcases List.mem_append.1 hv with hv | hv
      · exact h.ok p v hv
      · rw [List.mem_singleton.1 hv]; exact u3 p (hW p)
    · simp [h.len]
    · simp only
      refine List.nodup_append.2 ⟨h.nodup, by simp, fun a ha b hb e => ?_⟩
      rw [List.mem_singleton.1 hb] at e
      exact n3 a (h.sub a ha) k hk e
    · intro x hx
      simp only [List.flatten_append, List.flatten_cons, List.flatten_nil, List.append_nil, List.mem_append]
      rcases List.mem_append.1 hx with hx | hx
      · exact .inl (h.sub x hx)
      · rw [List.mem_singleton.1 hx]; exact .inr hkt
  · have := hperm.length_eq
    rw [List.length_append] at this
    have : 0 < u.length := List.length_pos_of_mem hkt
    simp only
    omega

theorem cmtOneLoop_spec {N : ℕ} {D : ℕ → ℕ → ℚ} {d : ℕ → ℚ} {C L : Option ℚ} {P : Prop} {tsp : CmtTsp}
    (ht : TspRoutine D tsp) (hP : P → Serviceable N D d C L) (hW : P → NoWorse D tsp) (lam : ℚ) {m : CmtSeed}
    (hm : m ≠ .other) {us : List (List ℕ)} {s : CmtOne} (h : CmtOneInv N D d C L P us s) :
    ∃ us' s', s'.unrouted = [] ∧ CmtOneInv N D d C L P us' s' ∧
      ∀ fuel > s.unrouted.length, cmtOneLoop D d C L tsp lam m fuel s = .ok (some s') := by
  generalize hn : s.unrouted.length = n
  induction n using Nat.strong_induction_on generalizing s us with
  | _ n ih =>
    by_cases hu : s.unrouted = []
    · refine ⟨us, s, hu, h, fun fuel hf => ?_⟩
      obtain ⟨f, rfl⟩ : ∃ f, fuel = f + 1 := ⟨fuel - 1, by omega⟩
      rw [cmtOneLoop, if_pos hu]
    · obtain ⟨u, s1, g1, g2, g3⟩ := cmtOneStep_spec ht hP hW lam hm h hu
      obtain ⟨us', s', k1, k2, k3⟩ := ih s1.unrouted.length (hn ▸ g3) g2 rfl
      refine ⟨us', s', k1, k2, fun fuel hf => ?_⟩
      obtain ⟨f, rfl⟩ : ∃ f, fuel = f + 1 := ⟨fuel - 1, by omega⟩
      rw [cmtOneLoop, if_neg hu, g1]
      exact k3 f (by omega)

theorem cmt_tour_flatMap (us : List (List ℕ)) : (us.flatMap fun u => 0 :: u) ++ [0] = tour us := by
  induction us with
  | nil => rfl
  | cons u us ih => simp [tour, ← ih]

/-! ## The second phase -/

/-- The customers of the routes. -/
def cmtCusts (rs : List CmtRoute) : List ℕ := rs.flatMap fun r => r.route.tail

/-- The invariant of the second phase. -/
structure CmtTwoInv (N K : ℕ) (D : ℕ → ℕ → ℚ) (d : ℕ → ℚ) (C L : Option ℚ) (P : Prop) (s : CmtTwo) : Prop where
  routes : ∀ r ∈ s.routes, CmtOk D d C L P r.route.tail r
  perm : (cmtCusts s.routes ++ s.unrouted).Perm (List.range' 1 (N - 1))
  len : s.routes.length = K
  idxs : ∀ k ∈ s.idxs, k < K

theorem cmtCusts_set {rs : List CmtRoute} {k : ℕ} {r r' : CmtRoute} (h : rs[k]? = some r) :
    (r.route.tail ++ cmtCusts (rs.set k r')).Perm (r'.route.tail ++ cmtCusts rs) := by
  induction rs generalizing k with
  | nil => simp at h
  | cons x rs ih =>
    cases k with
    | zero =>
      simp only [List.getElem?_cons_zero, Option.some.injEq] at h
      subst h
      simp only [List.set_cons_zero, cmtCusts, List.flatMap_cons]
      exact List.perm_append_comm_assoc _ _ _
    | succ k =>
      simp only [List.getElem?_cons_succ] at h
      have := ih h
      simp only [List.set_cons_succ, cmtCusts, List.flatMap_cons]
      simp only [cmtCusts] at this
      refine (List.perm_append_comm_assoc _ _ _).trans ?_
      refine (this.append_left _).trans ?_
      exact List.perm_append_comm_assoc _ _ _

theorem cmtTryAll_spec {D : ℕ → ℕ → ℚ} {d : ℕ → ℚ} {C L : Option ℚ} {P : Prop} {tsp : CmtTsp}
    (ht : TspRoutine D tsp) (k : ℕ) (is : List ℕ) {t : List ℕ} {s : CmtTry} (h : CmtOk D d C L P t s.r)
    (hn : (0 :: (t ++ s.unrouted)).Nodup) (his : ∀ i ∈ is, i ∈ s.unrouted) (hid : is.Nodup) :
    ∃ s' t', cmtTryAll D d C L tsp k is s = .ok s' ∧ CmtOk D d C L P t' s'.r ∧
      (t' ++ s'.unrouted).Perm (t ++ s.unrouted) ∧ (s.made = true → s'.made = true) ∧
      ((s'.r = s.r ∧ s'.unrouted = s.unrouted ∧ s'.made = s.made) ∨
        (s'.made = true ∧ s'.unrouted.length < s.unrouted.length)) := by
  induction is generalizing t s with
  | nil => exact ⟨s, t, rfl, h, List.Perm.refl _, id, .inl ⟨rfl, rfl, rfl⟩⟩
  | cons i is ih =>
    have hi := his i (by simp)
    have hsub : (t ++ s.unrouted).Perm (t ++ [i] ++ s.unrouted.erase i) := by
      have := List.perm_cons_erase hi
      refine (this.append_left t).trans ?_
      simp
    have hn' : (0 :: (t ++ [i] ++ s.unrouted.erase i)).Nodup := (hsub.cons 0).nodup_iff.1 hn
    have hn1 : (0 :: (t ++ [i])).Nodup := by
      rw [← List.cons_append] at hn'
      exact (List.nodup_append.1 hn').1
    obtain ⟨out, h1, h2⟩ := cmtInsert_spec (L := L) ht h hn1
    obtain ⟨hd1, hd2⟩ := List.nodup_cons.1 hid
    have his' : ∀ j ∈ is, j ∈ s.unrouted := fun j hj => his j (by simp [hj])
    unfold cmtTryAll cmtTryOne
    rw [h1]
    cases out with
    | overC => exact ih h hn his' hd2
    | overL =>
      simp only
      by_cases hc : truthy L = true ∧ (k, i) ∈ s.infeasible
      · rw [if_pos hc]; exact ih h hn his' hd2
      · rw [if_neg hc]
        exact ih (s := { s with infeasible := (k, i) :: s.infeasible }) h hn his' hd2
    | accepted r' =>
      simp only
      by_cases hc : truthy L = true ∧ (k, i) ∈ s.infeasible
      · rw [if_pos hc]; exact ih h hn his' hd2
      · rw [if_neg hc, cmtRemove_mem hi]
        simp only
        obtain ⟨t1, g1, g2⟩ := h2 r' rfl
        have hp : (t1 ++ s.unrouted.erase i).Perm (t ++ s.unrouted) := (g1.append_right _).trans hsub.symm
        obtain ⟨s2, t2, k1, k2, k3, k4, k5⟩ := ih (s := { s with r := r', unrouted := s.unrouted.erase i, made := true })
          g2 ((hp.cons 0).nodup_iff.2 hn)
          (fun j hj => by
            have hne : j ≠ i := fun e => hd1 (e ▸ hj)
            exact (List.mem_erase_of_ne hne).2 (his' j hj)) hd2
        have hlen : (s.unrouted.erase i).length < s.unrouted.length := by
          rw [List.length_erase_of_mem hi]
          have := List.length_pos_of_mem hi
          omega
        refine ⟨s2, t2, k1, k2, k3.trans hp, fun _ => k4 rfl, .inr ⟨k4 rfl, ?_⟩⟩
        rcases k5 with ⟨_, e, _⟩ | ⟨_, e⟩
        · rw [e]; exact hlen
        · exact e.trans hlen

theorem cmtSigmas_perm (D : ℕ → ℕ → ℚ) (p : CmtParams) (k : ℕ) (rest cols : List ℕ) :
    (cmtSigmas D p k rest cols).Perm cols := by
  unfold cmtSigmas
  refine ((pySort_perm _ _).map _).trans ?_
  rw [List.map_map]
  exact List.Perm.of_eq (by simp [Function.comp_def])

theorem cmtStars_spec {D : ℕ → ℕ → ℚ} {p : CmtParams} {nth : ℕ} {idxs : List ℕ} (hi : idxs ≠ [])
    (un : List ℕ) : ∃ stars, cmtStars D p nth idxs un = .ok stars ∧ stars.map (·.2) = un := by
  induction un with
  | nil => exact ⟨[], rfl, rfl⟩
  | cons n un ih =>
    obtain ⟨stars, h1, h2⟩ := ih
    have : ∃ q, cmtStar D p nth idxs n = .ok q := by
      unfold cmtStar
      simp only
      split_ifs with hh
      · obtain ⟨q, hq⟩ := gmArgmin_some (fun q => (idxs.map fun k => cmtEps D p.mu (p.seeds.getD k 0) n).getD q 0)
          (l := List.range (idxs.map fun k => cmtEps D p.mu (p.seeds.getD k 0) n).length) (by simpa using hi)
        refine ⟨q, ?_⟩
        unfold cmtArgmin
        rw [hq]
      · exact ⟨_, rfl⟩
    obtain ⟨q, hq⟩ := this
    refine ⟨(q, n) :: stars, ?_, by simp [h2]⟩
    unfold cmtStars
    rw [hq, h1]

theorem cmtChoose_spec (p : CmtParams) {idxs : List ℕ} (hi : idxs ≠ []) (stars : List (ℕ × ℕ)) :
    ∃ q, cmtChoose p idxs stars = some q ∧ q < idxs.length := by
  unfold cmtChoose
  have hpos : 0 < idxs.length := List.length_pos_iff.2 hi
  split_ifs with hm
  · obtain ⟨q, hq⟩ := gmArgmin_some (fun q => - ((stars.filter fun x => decide (x.1 = q)).length : ℚ))
      (l := List.range idxs.length) (by simpa using hi)
    exact ⟨q, hq, List.mem_range.1 (gmArgmin_mem hq)⟩
  · exact ⟨0, rfl, hpos⟩

/-- What decreases in the second phase. -/
def cmtMeasure (p : CmtParams) (s : CmtTwo) : ℕ :=
  (match p.rep with | none => 0 | some m => m + 1 - s.nth) + s.unrouted.length + (if s.made then 1 else 0) +
    (if s.first then 1 else 0)

theorem cmtServe_spec {N K : ℕ} {D : ℕ → ℕ → ℚ} {d : ℕ → ℚ} {C L : Option ℚ} {P : Prop} {tsp : CmtTsp}
    (ht : TspRoutine D tsp) {p : CmtParams} {s : CmtTwo} (h : CmtTwoInv N K D d C L P s) {stars : List (ℕ × ℕ)}
    (hst : stars.map (·.2) = s.unrouted) {q : ℕ} (hq : q < s.idxs.length) :
    ∃ s', cmtServe D d C L tsp p s stars q = .ok s' ∧ CmtTwoInv N K D d C L P s' ∧ s'.first = s.first ∧
      s'.nth = s.nth ∧ s'.idxs.length < s.idxs.length ∧ cmtMeasure p s' ≤ cmtMeasure p s := by
  have hnd : (cmtCusts s.routes ++ s.unrouted).Nodup := h.perm.nodup_iff.2 List.nodup_range'
  have hrng : ∀ x, x ∈ cmtCusts s.routes ∨ x ∈ s.unrouted → 1 ≤ x ∧ x < N := by
    intro x hx
    have := h.perm.mem_iff.1 (List.mem_append.2 hx)
    rw [List.mem_range'_1] at this
    omega
  obtain ⟨n1, n2, n3⟩ := List.nodup_append.1 hnd
  have hk : s.idxs[q]? = some s.idxs[q] := List.getElem?_eq_getElem hq
  generalize s.idxs[q] = k at hk
  have hkm : k ∈ s.idxs := List.mem_of_getElem? hk
  have hkK := h.idxs k hkm
  have hr : s.routes[k]? = some (s.routes[k]'(by rw [h.len]; exact hkK)) := List.getElem?_eq_getElem _
  generalize s.routes[k]'(by rw [h.len]; exact hkK) = r at hr
  have hrm := List.mem_of_getElem? hr
  have hrok := h.routes r hrm
  set cols := (stars.filter fun x => decide (x.1 = q)).map (·.2) with hcols
  have hcsub : cols.Sublist s.unrouted := by
    rw [← hst, hcols]
    exact List.filter_sublist.map _
  have hsg := cmtSigmas_perm D p k (s.idxs.erase k) cols
  have hmemr : ∀ x ∈ r.route.tail, x ∈ cmtCusts s.routes := fun x hx =>
    List.mem_flatMap.2 ⟨r, hrm, hx⟩
  have hrsub : r.route.tail.Sublist (cmtCusts s.routes) := by
    unfold cmtCusts
    rw [List.flatMap_def]
    exact List.sublist_flatten_of_mem (List.mem_map_of_mem hrm)
  have hn0 : (0 :: (r.route.tail ++ s.unrouted)).Nodup := by
    refine List.nodup_cons.2 ⟨fun hx => ?_, ?_⟩
    · rcases List.mem_append.1 hx with hx | hx
      · have := hrng 0 (.inl (hmemr 0 hx)); omega
      · have := hrng 0 (.inr hx); omega
    · exact List.Nodup.sublist (hrsub.append_right _) hnd
  obtain ⟨t, t', e1, e2, e3, e4, e5⟩ := cmtTryAll_spec (L := L) (s := ⟨r, s.unrouted, s.infeasible, s.made⟩) ht k
    (cmtSigmas D p k (s.idxs.erase k) cols) hrok hn0 (fun i hi => hcsub.subset (hsg.mem_iff.1 hi))
    (hsg.nodup_iff.2 (n2.sublist hcsub))
  simp only at e3 e4 e5
  have htail : t.r.route.tail = t' := by rw [e2.shape]; rfl
  have hlen' : (s.idxs.erase k).length < s.idxs.length := by
    rw [List.length_erase_of_mem hkm]; omega
  refine ⟨{ s with unrouted := t.unrouted, routes := if t.made then s.routes.set k t.r else s.routes,
                   infeasible := t.infeasible, idxs := s.idxs.erase k, made := t.made }, ?_, ⟨?_, ?_, ?_, ?_⟩, rfl, rfl, hlen', ?_⟩
  · unfold cmtServe
    rw [show idx s.idxs q = .ok k by rw [idx, hk]]
    simp only
    rw [show idx s.routes k = .ok r by rw [idx, hr]]
    simp only
    rw [e1]
  · intro x hx
    simp only at hx
    split_ifs at hx with hm
    · rcases List.mem_or_eq_of_mem_set hx with hx | rfl
      · exact h.routes x hx
      · rw [htail]; exact e2
    · exact h.routes x hx
  · simp only
    by_cases hm : t.made = true
    · rw [if_pos hm]
      have a1 := cmtCusts_set (r' := t.r) hr
      rw [htail] at a1
      refine List.Perm.trans ?_ h.perm
      rw [List.perm_iff_count] at a1 e3 ⊢
      intro x
      have b1 := a1 x
      have b2 := e3 x
      simp only [List.count_append] at b1 b2 ⊢
      omega
    · rw [if_neg hm]
      rcases e5 with ⟨_, e, _⟩ | ⟨e, _⟩
      · rw [e]; exact h.perm
      · exact absurd e hm
  · simp only
    split_ifs
    · rw [List.length_set]; exact h.len
    · exact h.len
  · intro j hj
    exact h.idxs j (List.mem_of_mem_erase hj)
  · unfold cmtMeasure
    simp only
    rcases e5 with ⟨_, e, e'⟩ | ⟨e, e'⟩
    · rw [e, e']
    · rw [e]
      split_ifs <;> omega

theorem cmtTwoStep_spec {N K : ℕ} {D : ℕ → ℕ → ℚ} {d : ℕ → ℚ} {C L : Option ℚ} {P : Prop} {tsp : CmtTsp}
    (ht : TspRoutine D tsp) {p : CmtParams} {s : CmtTwo} (h : CmtTwoInv N K D d C L P s) (hi : s.idxs ≠ []) :
    ∃ s', cmtTwoStep D d C L tsp p s = .ok s' ∧ CmtTwoInv N K D d C L P s' ∧
      s'.idxs.length < s.idxs.length ∧ cmtMeasure p s' ≤ cmtMeasure p s := by
  unfold cmtTwoStep
  by_cases hc : ¬ (s.nth = 1 ∨ s.idxs.length = 1) ∧ s.idxs.length < s.nth
  · rw [if_pos hc]
    exact ⟨_, rfl, ⟨h.routes, h.perm, h.len, by simp⟩, by simpa [List.length_pos_iff] using hi, le_refl _⟩
  · rw [if_neg hc]
    obtain ⟨stars, e1, e2⟩ := cmtStars_spec (D := D) (p := p) (nth := s.nth) hi s.unrouted
    obtain ⟨q, e3, e4⟩ := cmtChoose_spec p hi stars
    rw [e1]; simp only
    rw [e3]; simp only
    obtain ⟨s', g1, g2, _, _, g5, g6⟩ := cmtServe_spec (L := L) (P := P) ht (p := p) h e2 e4
    exact ⟨s', g1, g2, g5, g6⟩

/-- The shuffle gives each route once. -/
def CmtParams.ShuffleOk (p : CmtParams) : Prop := ∀ s : CmtTwo, s.routes.length = p.seeds.length →
  (p.shuffle s).Perm (List.range p.seeds.length)

theorem cmtRefill_spec {N : ℕ} {D : ℕ → ℕ → ℚ} {d : ℕ → ℚ} {C L : Option ℚ} {P : Prop} {p : CmtParams}
    (hs : p.ShuffleOk) (hK : p.seeds ≠ []) {s s1 : CmtTwo} (h : CmtTwoInv N p.seeds.length D d C L P s)
    (hr : cmtRefill p s = some s1) :
    CmtTwoInv N p.seeds.length D d C L P s1 ∧ s1.idxs ≠ [] ∧ s1.unrouted = s.unrouted ∧ s1.routes = s.routes ∧
      (s1 = s ∨ (s1.idxs.length = p.seeds.length ∧ cmtMeasure p s1 < cmtMeasure p s)) := by
  have hp := hs s h.len
  have hne : p.shuffle s ≠ [] := by
    intro e
    rw [e] at hp
    have := hp.length_eq
    simp only [List.length_nil, List.length_range] at this
    exact hK (List.length_eq_zero_iff.1 this.symm)
  have hlt : ∀ k ∈ p.shuffle s, k < p.seeds.length := fun k hk => List.mem_range.1 (hp.mem_iff.1 hk)
  have hlen : (p.shuffle s).length = p.seeds.length := by rw [hp.length_eq, List.length_range]
  unfold cmtRefill at hr
  by_cases hi : s.idxs ≠ []
  · rw [if_pos hi] at hr
    injection hr with hr
    subst hr
    exact ⟨h, hi, rfl, rfl, .inl rfl⟩
  rw [if_neg hi] at hr
  by_cases hf : s.first = true
  · rw [if_pos hf] at hr
    injection hr with hr
    subst hr
    refine ⟨⟨h.routes, h.perm, h.len, hlt⟩, hne, rfl, rfl, .inr ⟨hlen, ?_⟩⟩
    unfold cmtMeasure
    simp only [hf]
    simp only [Bool.false_eq_true, if_false, if_true]
    split_ifs <;> omega
  · rw [if_neg hf] at hr
    cases hrep : p.rep with
    | none => rw [hrep] at hr; cases hr
    | some m =>
      rw [hrep] at hr
      simp only at hr
      by_cases hm : (if s.made = true then s.nth else s.nth + 1) > m
      · rw [if_pos hm] at hr; cases hr
      · rw [if_neg hm] at hr
        injection hr with hr
        subst hr
        refine ⟨⟨h.routes, h.perm, h.len, hlt⟩, hne, rfl, rfl, .inr ⟨hlen, ?_⟩⟩
        unfold cmtMeasure
        simp only [hrep, hf]
        by_cases hmd : s.made = true
        · simp [hmd]
        · simp only [hmd] at hm ⊢
          simp only [Bool.false_eq_true, if_false] at hm ⊢
          omega

theorem cmtTwoLoop_spec {N : ℕ} {D : ℕ → ℕ → ℚ} {d : ℕ → ℚ} {C L : Option ℚ} {P : Prop} {tsp : CmtTsp}
    (ht : TspRoutine D tsp) {p : CmtParams} (hs : p.ShuffleOk) (hK : p.seeds ≠ []) {s : CmtTwo}
    (h : CmtTwoInv N p.seeds.length D d C L P s) :
    ∃ s', CmtTwoInv N p.seeds.length D d C L P s' ∧
      ∃ F, ∀ fuel ≥ F, cmtTwoLoop D d C L tsp p fuel s = .ok (some s') := by
  generalize hn : cmtMeasure p s * (p.seeds.length + 1) + s.idxs.length = n
  induction n using Nat.strong_induction_on generalizing s with
  | _ n ih =>
    by_cases hu : s.unrouted = []
    · refine ⟨s, h, 1, fun fuel hf => ?_⟩
      obtain ⟨f, rfl⟩ : ∃ f, fuel = f + 1 := ⟨fuel - 1, by omega⟩
      rw [cmtTwoLoop, if_pos hu]
    cases hr : cmtRefill p s with
    | none =>
      refine ⟨s, h, 1, fun fuel hf => ?_⟩
      obtain ⟨f, rfl⟩ : ∃ f, fuel = f + 1 := ⟨fuel - 1, by omega⟩
      rw [cmtTwoLoop, if_neg hu, hr]
    | some s1 =>
      obtain ⟨g1, g2, -, -, g5⟩ := cmtRefill_spec hs hK h hr
      obtain ⟨s2, k1, k2, k3, k4⟩ := cmtTwoStep_spec ht (p := p) g1 g2
      have hlt : cmtMeasure p s2 * (p.seeds.length + 1) + s2.idxs.length < n := by
        have a1 := Nat.mul_le_mul_right (p.seeds.length + 1) k4
        rcases g5 with rfl | ⟨b1, b2⟩
        · omega
        · have a2 := Nat.mul_le_mul_right (p.seeds.length + 1) (Nat.succ_le_of_lt b2)
          rw [Nat.succ_mul] at a2
          omega
      obtain ⟨s', m1, F, m2⟩ := ih _ hlt k2 rfl
      refine ⟨s', m1, F + 1, fun fuel hf => ?_⟩
      obtain ⟨f, rfl⟩ : ∃ f, fuel = f + 1 := ⟨fuel - 1, by omega⟩
      rw [cmtTwoLoop, if_neg hu, hr]
      simp only
      rw [k1]
      exact m2 f (by omega)

theorem cmtSolution_spec {N : ℕ} {D : ℕ → ℕ → ℚ} {d : ℕ → ℚ} {C L : Option ℚ} {P : Prop} {tsp : CmtTsp}
    (ht : TspRoutine D tsp) (hW : P → NoWorse D tsp) {rs : List CmtRoute}
    (h : ∀ r ∈ rs, CmtOk D d C L P r.route.tail r) (hn : (cmtCusts rs).Nodup) (hr : ∀ x ∈ cmtCusts rs, 1 ≤ x ∧ x < N) :
    ∃ us, cmtSolution tsp rs = (tour us, cost D (tour us)) ∧ us.flatten.Perm (cmtCusts rs) ∧ us.length = rs.length ∧
      ∀ u ∈ us, u ≠ [] ∧ (P → RouteOk D d C L u) := by
  have key : ∃ us : List (List ℕ), rs.flatMap (fun r => (cmtFinish tsp r).1) = us.flatMap (fun u => 0 :: u) ∧
      (rs.map fun r => (cmtFinish tsp r).2).sum = (us.map fun u => cost D (wrap u)).sum ∧
      us.flatten.Perm (cmtCusts rs) ∧ us.length = rs.length ∧ ∀ u ∈ us, u ≠ [] ∧ (P → RouteOk D d C L u) := by
    induction rs with
    | nil => exact ⟨[], rfl, rfl, List.Perm.refl _, rfl, by simp⟩
    | cons r rs ih =>
      unfold cmtCusts at hn hr
      rw [List.flatMap_cons] at hn hr
      obtain ⟨n1, n2, _⟩ := List.nodup_append.1 hn
      obtain ⟨us, e1, e2, e3, e4, e5⟩ := ih (fun x hx => h x (by simp [hx])) n2
        (fun x hx => hr x (List.mem_append.2 (.inr hx)))
      have hrk := h r (by simp)
      obtain ⟨u, u1, u2, u3⟩ := cmtFinish_spec ht hrk (List.nodup_cons.2 ⟨fun hx => by
        have := hr 0 (List.mem_append.2 (.inl hx)); omega, n1⟩)
      refine ⟨u :: us, ?_, ?_, ?_, by simp [e4], ?_⟩
      · rw [List.flatMap_cons, e1, u2]; rfl
      · rw [List.map_cons, List.sum_cons, e2, u2]; rfl
      · rw [List.flatten_cons, cmtCusts, List.flatMap_cons]
        exact u1.append e3
      · intro v hv
        rcases List.mem_cons.1 hv with rfl | hv
        · refine ⟨fun e => ?_, fun pp => u3 pp (hW pp)⟩
          rw [e] at u1
          exact hrk.ne (List.nil_perm.1 u1)
        · exact e5 v hv
  obtain ⟨us, e1, e2, e3, e4, e5⟩ := key
  refine ⟨us, ?_, e3, e4, e5⟩
  unfold cmtSolution
  rw [e1, e2, cmt_tour_flatMap, cost_tour_sum]

theorem cmtTwoInit_inv {N : ℕ} {D : ℕ → ℕ → ℚ} {d : ℕ → ℚ} {C L : Option ℚ} {P : Prop}
    (hP : P → Serviceable N D d C L) {p : CmtParams} (hd : p.seeds.Nodup) (hr : ∀ k ∈ p.seeds, 1 ≤ k ∧ k < N)
    {order : List ℕ} (ho : order.Perm (List.range' 1 (N - 1))) :
    CmtTwoInv N p.seeds.length D d C L P (cmtTwoInit D d C p order) where
  routes := by
    intro r hr'
    obtain ⟨k, hk, rfl⟩ := List.mem_map.1 hr'
    exact cmtStart_ok hP (hr k hk).1 (hr k hk).2
  perm := by
    have e : cmtCusts (p.seeds.map (cmtStart D d C)) = p.seeds := by
      generalize p.seeds = l
      induction l with
      | nil => rfl
      | cons a l ih =>
        simp only [cmtCusts] at ih
        simp only [cmtCusts, List.map_cons, List.flatMap_cons, ih]
        rfl
    simp only [cmtTwoInit]
    rw [e]
    refine List.Perm.trans (foldl_erase_perm p.seeds order hd ?_).symm ho
    intro x hx
    rw [ho.mem_iff, List.mem_range'_1]
    have := hr x hx
    omega
  len := by simp [cmtTwoInit]
  idxs := by simp [cmtTwoInit]

end Verif
