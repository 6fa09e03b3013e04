import Verif.Props.Cmt

/-! # C38, C42: which customers the two phases choose -/

namespace Verif
open Spec

/-- A customer does not go into the route with the customers `v` (in the order in which they are visited): the
vehicle is too small, or neither the customer at the end nor the tour of the routine keep the limit. -/
def Refused (D : ℕ → ℕ → ℚ) (d : ℕ → ℚ) (C L : Option ℚ) (tsp : CmtTsp) (v : List ℕ) (i : ℕ) : Prop :=
  ¬ Within C C_EPS (demand d v + d i) ∨
    (¬ Within L S_EPS (cost D (wrap (v ++ [i]))) ∧ ¬ Within L S_EPS (tsp (0 :: (v ++ [i]))).2)

theorem exceeds_true {lim : Option ℚ} {e x : ℚ} (h : exceeds lim e x = true) : truthy lim = true ∧ ¬ Within lim e x := by
  refine ⟨?_, fun hw => ?_⟩
  · by_contra ht
    have := (exceeds_iff lim e x).2 (within_of_not_truthy ht e x)
    rw [h] at this; cases this
  · rw [(exceeds_iff lim e x).2 hw] at h; cases h

theorem cmtInsert_refused {D : ℕ → ℕ → ℚ} {d : ℕ → ℚ} {C L : Option ℚ} {P : Prop} {tsp : CmtTsp} {t : List ℕ}
    {r : CmtRoute} (h : CmtOk D d C L P t r) {i : ℕ} {out : CmtOutcome} (ho : cmtInsert D d C L tsp r i = .ok out)
    (hr : out = .overC ∨ out = .overL) : Refused D d C L tsp t i := by
  unfold cmtInsert at ho
  by_cases h1 : exceeds C C_EPS (r.demand + d i) = true
  · obtain ⟨e1, e2⟩ := exceeds_true h1
    rw [h.demand e1] at e2
    exact .inl e2
  rw [if_neg h1] at ho
  obtain ⟨z, hz⟩ : ∃ z, t.getLast? = some z := by
    cases hl : t.getLast? with
    | none => exact absurd (List.getLast?_eq_none_iff.1 hl) h.ne
    | some z => exact ⟨z, rfl⟩
  obtain ⟨a, ha⟩ : ∃ a, t.head? = some a := by
    cases hl : t.head? with
    | none => exact absurd (List.head?_eq_none_iff.1 hl) h.ne
    | some z => exact ⟨z, rfl⟩
  rw [show r.route.getLast? = some z by rw [h.shape, List.getLast?_cons, hz]; rfl] at ho
  simp only at ho
  have hub : r.cost - D z 0 + D z i + D i 0 = cost D (wrap (t ++ [i])) := by
    rw [h.cost, (wrap_extended ha hz i).2, cost_wrap_split ha hz]
    ring
  by_cases h2 : exceeds L S_EPS (r.cost - D z 0 + D z i + D i 0) = true
  · rw [if_pos h2] at ho
    by_cases h3 : exceeds L S_EPS (tsp (r.route ++ [i])).2 = true
    · refine .inr ⟨hub ▸ (exceeds_true h2).2, ?_⟩
      have := (exceeds_true h3).2
      rwa [h.shape] at this
    · rw [if_neg h3] at ho
      injection ho with ho
      subst ho
      rcases hr with hr | hr <;> cases hr
  · rw [if_neg h2] at ho
    injection ho with ho
    subst ho
    rcases hr with hr | hr <;> cases hr

theorem filter_mem_cons {l pre : List ℕ} {i : ℕ} (h : i ∉ l) :
    (l.filter fun x => decide (x ∈ i :: pre)) = l.filter fun x => decide (x ∈ pre) := by
  refine List.filter_congr fun x hx => ?_
  have : x ≠ i := fun e => h (e ▸ hx)
  simp [this]

/-- The customers that are taken, and what holds for the others. -/
theorem cmtFill_trace {D : ℕ → ℕ → ℚ} {d : ℕ → ℚ} {C L : Option ℚ} {P : Prop} {tsp : CmtTsp}
    (ht : TspRoutine D tsp) (is : List ℕ) {t : List ℕ} {r : CmtRoute} {un : List ℕ} (h : CmtOk D d C L P t r)
    (hn : (0 :: (t ++ un)).Nodup) (his : ∀ i ∈ is, i ∈ un) (hid : is.Nodup) {r' : CmtRoute} {un' : List ℕ}
    (hf : cmtFill D d C L tsp is r un = .ok (r', un')) :
    ∃ t' acc, CmtOk D d C L P t' r' ∧ acc.Sublist is ∧ t'.Perm (t ++ acc) ∧ un.Perm (acc ++ un') ∧
      ∀ pre i post, is = pre ++ i :: post → i ∉ acc →
        ∃ v, v.Perm (t ++ acc.filter fun x => decide (x ∈ pre)) ∧ Refused D d C L tsp v i := by
  induction is generalizing t r un with
  | nil =>
    simp only [cmtFill, Except.ok.injEq, Prod.mk.injEq] at hf
    obtain ⟨rfl, rfl⟩ := hf
    exact ⟨t, [], h, List.Sublist.refl _, by simp, by simp, by simp⟩
  | cons i is ih =>
    have hi := his i (by simp)
    have hsub : (t ++ un).Perm (t ++ [i] ++ un.erase i) := by
      have := List.perm_cons_erase hi
      refine (this.append_left t).trans ?_
      simp
    have hn' : (0 :: (t ++ [i] ++ un.erase i)).Nodup := (hsub.cons 0).nodup_iff.1 hn
    have hn1 : (0 :: (t ++ [i])).Nodup := by
      rw [← List.cons_append] at hn'
      exact (List.nodup_append.1 hn').1
    obtain ⟨out, h1, h2⟩ := cmtInsert_spec (L := L) ht h hn1
    obtain ⟨hd1, hd2⟩ := List.nodup_cons.1 hid
    unfold cmtFill at hf
    rw [h1] at hf
    have hrest : (out = .overC ∨ out = .overL) → cmtFill D d C L tsp is r un = .ok (r', un') →
        ∃ t' acc, CmtOk D d C L P t' r' ∧ acc.Sublist (i :: is) ∧ t'.Perm (t ++ acc) ∧ un.Perm (acc ++ un') ∧
          ∀ pre j post, i :: is = pre ++ j :: post → j ∉ acc →
            ∃ v, v.Perm (t ++ acc.filter fun x => decide (x ∈ pre)) ∧ Refused D d C L tsp v j := by
      intro ho hf
      obtain ⟨t', acc, e1, e2, e3, e4, e5⟩ := ih h hn (fun j hj => his j (by simp [hj])) hd2 hf
      refine ⟨t', acc, e1, e2.trans (List.sublist_cons_self _ _), e3, e4, ?_⟩
      intro pre j post e hj
      cases pre with
      | nil =>
        simp only [List.nil_append, List.cons.injEq] at e
        obtain ⟨rfl, -⟩ := e
        exact ⟨t, by simp, cmtInsert_refused h h1 ho⟩
      | cons q pre =>
        simp only [List.cons_append, List.cons.injEq] at e
        obtain ⟨rfl, e⟩ := e
        obtain ⟨v, v1, v2⟩ := e5 pre j post e hj
        refine ⟨v, ?_, v2⟩
        rw [filter_mem_cons fun hx => hd1 (e2.subset hx)]
        exact v1
    cases out with
    | overC => exact hrest (.inl rfl) hf
    | overL => exact hrest (.inr rfl) hf
    | accepted r1 =>
      simp only at hf
      rw [cmtRemove_mem hi] at hf
      simp only at hf
      obtain ⟨t1, g1, g2⟩ := h2 r1 rfl
      have hp : (t1 ++ un.erase i).Perm (t ++ un) := (g1.append_right _).trans hsub.symm
      obtain ⟨t', acc, e1, e2, e3, e4, e5⟩ := ih g2 ((hp.cons 0).nodup_iff.2 hn)
        (fun j hj => by
          have hne : j ≠ i := fun e => hd1 (e ▸ hj)
          exact (List.mem_erase_of_ne hne).2 (his j (by simp [hj]))) hd2 hf
      refine ⟨t', i :: acc, e1, e2.cons_cons i, ?_, ?_, ?_⟩
      · refine e3.trans ((g1.append_right acc).trans ?_)
        simp
      · exact (List.perm_cons_erase hi).trans (e4.cons i)
      · intro pre j post e hj
        cases pre with
        | nil =>
          simp only [List.nil_append, List.cons.injEq] at e
          obtain ⟨rfl, -⟩ := e
          exact absurd (by simp) hj
        | cons q pre =>
          simp only [List.cons_append, List.cons.injEq] at e
          obtain ⟨rfl, e⟩ := e
          obtain ⟨v, v1, v2⟩ := e5 pre j post e fun hx => hj (by simp [hx])
          refine ⟨v, v1.trans ((g1.append_right _).trans ?_), v2⟩
          rw [List.filter_cons, if_pos (by simp), filter_mem_cons fun hx => hd1 (e2.subset hx)]
          simp

/-! ## The seeds and the order of the savings -/

theorem gmArgmin_first {key : ℕ → ℚ} {l : List ℕ} {n : ℕ} (h : gmArgmin key l = some n) :
    ∃ A B, l = A ++ n :: B ∧ (∀ x ∈ A, key n < key x) ∧ ∀ x ∈ B, key n ≤ key x := by
  induction l generalizing n with
  | nil => cases h
  | cons a t ih =>
    unfold gmArgmin at h
    cases ht : gmArgmin key t with
    | none =>
      rw [ht] at h
      injection h with h
      subst h
      refine ⟨[], t, rfl, by simp, fun x hx => ?_⟩
      obtain ⟨m, hm⟩ := gmArgmin_some key (List.ne_nil_of_mem hx)
      rw [ht] at hm; cases hm
    | some b =>
      rw [ht] at h
      simp only at h
      obtain ⟨A, B, e1, e2, e3⟩ := ih ht
      by_cases hab : key a ≤ key b
      · rw [if_pos hab] at h
        injection h with h
        subst h
        refine ⟨[], t, rfl, by simp, fun x hx => ?_⟩
        rw [e1] at hx
        rcases List.mem_append.1 hx with hx | hx
        · exact hab.trans (e2 x hx).le
        · rcases List.mem_cons.1 hx with rfl | hx
          · exact hab
          · exact hab.trans (e3 x hx)
      · rw [if_neg hab] at h
        injection h with h
        subst h
        refine ⟨a :: A, B, by rw [e1]; rfl, fun x hx => ?_, e3⟩
        rcases List.mem_cons.1 hx with rfl | hx
        · exact not_le.1 hab
        · exact e2 x hx

/-- What the rules for the seed mean: the first customer in the order given, the farthest, closest or biggest
one; the first one of several. -/
def SeedRule (D : ℕ → ℕ → ℚ) (d : ℕ → ℚ) (m : CmtSeed) (un : List ℕ) (k : ℕ) : Prop :=
  ∃ A B, un = A ++ k :: B ∧
    match m with
    | .first => A = []
    | .farthest => (∀ x ∈ A, D 0 x < D 0 k) ∧ ∀ x ∈ B, D 0 x ≤ D 0 k
    | .closest => (∀ x ∈ A, D 0 k < D 0 x) ∧ ∀ x ∈ B, D 0 k ≤ D 0 x
    | .biggest => (∀ x ∈ A, d x < d k) ∧ ∀ x ∈ B, d x ≤ d k
    | .other => False

theorem cmtSeed_rule {D : ℕ → ℕ → ℚ} {d : ℕ → ℚ} {m : CmtSeed} {un : List ℕ} {k : ℕ} (h : cmtSeed D d m un = .ok k) :
    SeedRule D d m un k := by
  unfold cmtSeed at h
  cases m with
  | first =>
    cases un with
    | nil => cases h
    | cons a t => injection h with h; subst h; exact ⟨[], t, rfl, rfl⟩
  | farthest =>
    simp only at h
    cases hg : gmArgmin (fun n => - D 0 n) un with
    | none => rw [hg] at h; cases h
    | some n =>
      rw [hg] at h; injection h with h; subst h
      obtain ⟨A, B, e1, e2, e3⟩ := gmArgmin_first hg
      exact ⟨A, B, e1, fun x hx => by have := e2 x hx; linarith, fun x hx => by have := e3 x hx; linarith⟩
  | closest =>
    simp only at h
    cases hg : gmArgmin (fun n => D 0 n) un with
    | none => rw [hg] at h; cases h
    | some n =>
      rw [hg] at h; injection h with h; subst h
      exact gmArgmin_first hg
  | biggest =>
    simp only at h
    cases hg : gmArgmin (fun n => - d n) un with
    | none => rw [hg] at h; cases h
    | some n =>
      rw [hg] at h; injection h with h; subst h
      obtain ⟨A, B, e1, e2, e3⟩ := gmArgmin_first hg
      exact ⟨A, B, e1, fun x hx => by have := e2 x hx; linarith, fun x hx => by have := e3 x hx; linarith⟩
  | other => cases h

/-- Tuples of a number and a node, in increasing order. -/
def TupleLt (f : ℕ → ℚ) (x y : ℕ) : Prop := f x < f y ∨ (f x = f y ∧ x < y)

instance (f : ℕ → ℚ) (x y : ℕ) : Decidable (TupleLt f x y) := by unfold TupleLt; infer_instance

theorem tupleLt_asymm {f : ℕ → ℚ} {x y : ℕ} (h : TupleLt f x y) : ¬ TupleLt f y x := by
  unfold TupleLt at *
  rintro (g | ⟨g1, g2⟩) <;> rcases h with h | ⟨h1, h2⟩
  · linarith
  · linarith
  · linarith
  · omega

theorem cmtLe_total (a b : ℚ × ℕ) : (cmtLe a b || cmtLe b a) = true := by
  simp only [cmtLe, Bool.or_eq_true, Bool.and_eq_true, decide_eq_true_eq]
  rcases lt_trichotomy a.1 b.1 with h | h | h
  · exact .inl (.inl h)
  · rcases le_total a.2 b.2 with g | g
    · exact .inl (.inr ⟨h, g⟩)
    · exact .inr (.inr ⟨h.symm, g⟩)
  · exact .inr (.inl h)

theorem cmtLe_trans (a b c : ℚ × ℕ) (h1 : cmtLe a b = true) (h2 : cmtLe b c = true) : cmtLe a c = true := by
  simp only [cmtLe, Bool.or_eq_true, Bool.and_eq_true, decide_eq_true_eq] at *
  rcases h1 with h1 | ⟨h1, g1⟩
  · rcases h2 with h2 | ⟨h2, g2⟩
    · exact .inl (h1.trans h2)
    · exact .inl (h2 ▸ h1)
  · rcases h2 with h2 | ⟨h2, g2⟩
    · exact .inl (h1 ▸ h2)
    · exact .inr ⟨h1.trans h2, g1.trans g2⟩

/-- What a list of tuples sorted by `cmtLe`, or by its converse, gives. -/
theorem sorted_nodes {f : ℕ → ℚ} {le : ℚ × ℕ → ℚ × ℕ → Bool} {R : ℕ → ℕ → Prop}
    (htr : ∀ a b c, le a b = true → le b c = true → le a c = true) (hto : ∀ a b, (le a b || le b a) = true)
    (hR : ∀ x y, x ≠ y → le (f x, x) (f y, y) = true → R x y) {un : List ℕ} (hun : un.Nodup) :
    ((pySort le (un.map fun n => (f n, n))).map (·.2)).Pairwise R := by
  have hp := pySort_pairwise htr hto (un.map fun n => (f n, n))
  have hperm := pySort_perm le (un.map fun n => (f n, n))
  have hform : ∀ p ∈ pySort le (un.map fun n => (f n, n)), p.1 = f p.2 := by
    intro p hp
    obtain ⟨n, _, rfl⟩ := List.mem_map.1 (hperm.mem_iff.1 hp)
    rfl
  have hnd : ((pySort le (un.map fun n => (f n, n))).map (·.2)).Nodup := by
    refine (hperm.map _).nodup_iff.2 ?_
    rw [List.map_map]
    simpa [Function.comp_def] using hun
  generalize pySort le (un.map fun n => (f n, n)) = l at hp hform hnd
  clear hperm
  rw [List.pairwise_map]
  have hnd' : l.Pairwise fun a b => a.2 ≠ b.2 := List.pairwise_map.1 hnd
  refine (hp.and hnd').imp_of_mem fun {a b} ha hb hab => ?_
  refine hR _ _ hab.2 ?_
  have e1 : (f a.2, a.2) = a := by rw [← hform a ha]
  have e2 : (f b.2, b.2) = b := by rw [← hform b hb]
  rw [e1, e2]; exact hab.1

theorem cmtSavings_sorted (D : ℕ → ℕ → ℚ) (lam : ℚ) (k : ℕ) {un : List ℕ} (hun : un.Nodup) :
    (cmtSavings D lam k un).Pairwise (TupleLt fun n => D 0 n + lam * D n k) := by
  unfold cmtSavings
  refine sorted_nodes cmtLe_trans cmtLe_total (fun x y hne h => ?_) hun
  simp only [cmtLe, Bool.or_eq_true, Bool.and_eq_true, decide_eq_true_eq] at h
  rcases h with h | ⟨h1, h2⟩
  · exact .inl h
  · exact .inr ⟨h1, by omega⟩

theorem mem_before {R : ℕ → ℕ → Prop} (hasym : ∀ x y, R x y → ¬ R y x) {pre post : List ℕ} {i : ℕ}
    (h : (pre ++ i :: post).Pairwise R) {x : ℕ} (hx : x ∈ pre ++ i :: post) (hne : x ≠ i) : x ∈ pre ↔ R x i := by
  obtain ⟨h1, h2, h3⟩ := List.pairwise_append.1 h
  obtain ⟨h4, h5⟩ := List.pairwise_cons.1 h2
  constructor
  · intro hp; exact h3 x hp i (by simp)
  · intro hr
    rcases List.mem_append.1 hx with hx | hx
    · exact hx
    · rcases List.mem_cons.1 hx with rfl | hx
      · exact absurd rfl hne
      · exact absurd hr (hasym _ _ (h4 x hx))

/-- **C38**: how the first phase makes a route. The seed is chosen by the rule; the customers are tried in the
order of their savings with the seed, each one once, and each customer that is left was refused when it was
tried, that is, when the customers of the route that come before it were in the route. -/
theorem C38_choice {N : ℕ} (D : ℕ → ℕ → ℚ) (d : ℕ → ℚ) (C L : Option ℚ) {tsp : CmtTsp} (ht : TspRoutine D tsp)
    (lam : ℚ) {m : CmtSeed} (hm : m ≠ .other) {order : List ℕ} (ho : order.Perm (List.range' 1 (N - 1)))
    {s s' : CmtOne} (hr : CmtOneReach D d C L tsp lam m ⟨order, [], [], 0⟩ s)
    (hs : cmtOneStep D d C L tsp lam m s = .ok s') :
    ∃ k u, SeedRule D d m s.unrouted k ∧ s'.seeds = s.seeds ++ [k] ∧ s'.sol = s.sol ++ 0 :: u ∧ k ∈ u ∧
      s.unrouted.Perm (u ++ s'.unrouted) ∧
      ∀ i ∈ s'.unrouted, ∃ v, Refused D d C L tsp v i ∧
        v.Perm (u.filter fun x => decide (x = k ∨ TupleLt (fun n => D 0 n + lam * D n k) x i)) := by
  obtain ⟨us, h⟩ : ∃ us, CmtOneInv N D d C L False us s := by
    clear hs
    induction hr with
    | refl => exact ⟨[], cmtOneInit_inv D d C L _ ho⟩
    | tail _ hs ih =>
      obtain ⟨us, ih⟩ := ih
      obtain ⟨u, s', g1, g2, _⟩ := cmtOneStep_spec ht (fun h => h.elim) (fun h => h.elim) lam hm ih hs.1
      rw [hs.2] at g1
      injection g1 with g1
      exact ⟨_, g1 ▸ g2⟩
  unfold cmtOneStep at hs
  cases hk0 : cmtSeed D d m s.unrouted with
  | error e => rw [hk0] at hs; cases hs
  | ok k =>
    rw [hk0] at hs
    simp only at hs
    have hrule := cmtSeed_rule hk0
    have hk : k ∈ s.unrouted := by
      obtain ⟨A, B, e, _⟩ := hrule
      rw [e]; simp
    rw [cmtRemove_mem hk] at hs
    simp only at hs
    have hnd : (us.flatten ++ s.unrouted).Nodup := h.perm.nodup_iff.2 List.nodup_range'
    obtain ⟨n1, n2, n3⟩ := List.nodup_append.1 hnd
    have hrng : ∀ x ∈ s.unrouted, 1 ≤ x ∧ x < N := by
      intro x hx
      have := h.perm.mem_iff.1 (List.mem_append_right _ hx)
      rw [List.mem_range'_1] at this
      omega
    have hke := List.perm_cons_erase hk
    have hn0 : (0 :: ([k] ++ s.unrouted.erase k)).Nodup := by
      refine List.nodup_cons.2 ⟨fun hx => ?_, ?_⟩
      · have := hrng 0 (hke.mem_iff.2 hx); omega
      · exact hke.nodup_iff.1 n2
    have hsv := cmtSavings_perm D lam k (s.unrouted.erase k)
    have hne := List.Nodup.erase k n2
    have hsorted := cmtSavings_sorted D lam k hne
    cases hf : cmtFill D d C L tsp (cmtSavings D lam k (s.unrouted.erase k)) (cmtStart D d C k)
        (s.unrouted.erase k) with
    | error e => rw [hf] at hs; cases hs
    | ok p =>
      obtain ⟨r, un'⟩ := p
      rw [hf] at hs
      simp only at hs
      injection hs with hs
      subst hs
      obtain ⟨t, acc, f1, f2, f3, f4, f5⟩ := cmtFill_trace ht _
        (cmtStart_ok (N := N) (C := C) (L := L) (P := False) (fun h => h.elim) (hrng k hk).1 (hrng k hk).2) hn0
        (fun i hi => hsv.mem_iff.1 hi) (hsv.nodup_iff.2 hne) hf
      have hpt : (t ++ un').Perm ([k] ++ s.unrouted.erase k) :=
        (f3.append_right _).trans (by
          rw [List.append_assoc]; exact (f4.symm.append_left _))
      have htn : (0 :: t).Nodup := by
        have := (hpt.cons 0).nodup_iff.2 hn0
        rw [← List.cons_append] at this
        exact (List.nodup_append.1 this).1
      obtain ⟨u, u1, u2, _⟩ := cmtFinish_spec ht f1 htn
      have hu : u.Perm (k :: acc) := u1.trans f3
      refine ⟨k, u, hrule, rfl, ?_, hu.mem_iff.2 (by simp), ?_, ?_⟩
      · rw [u2]
      · exact hke.trans ((hpt.symm.trans (u1.symm.append_right _)))
      · intro i hi
        have hie : i ∈ s.unrouted.erase k := f4.mem_iff.2 (List.mem_append_right _ hi)
        have hia : i ∉ acc := by
          intro hx
          have := f4.nodup_iff.1 hne
          exact (List.nodup_append.1 this).2.2 i hx i hi rfl
        obtain ⟨pre, post, e⟩ := List.append_of_mem (hsv.mem_iff.2 hie)
        obtain ⟨v, v1, v2⟩ := f5 pre i post e hia
        refine ⟨v, v2, v1.trans ?_⟩
        refine List.Perm.trans ?_ (hu.symm.filter _)
        rw [List.filter_cons, if_pos (by simp), List.singleton_append]
        refine List.Perm.cons k (List.Perm.of_eq (List.filter_congr fun x hx => ?_))
        have hxs := f2.subset hx
        have hxk : x ≠ k := by
          rintro rfl
          exact (List.Nodup.not_mem_erase n2) (hsv.mem_iff.1 hxs)
        have hxi : x ≠ i := fun e => hia (e ▸ hx)
        rw [e] at hsorted hxs
        have := mem_before (fun _ _ => tupleLt_asymm) hsorted hxs hxi
        simp only [hxk, false_or, this]

/-- **C38**: a route of the first phase is full: without a limit on the length, none of the customers left
would fit. -/
theorem C38_full {N : ℕ} (D : ℕ → ℕ → ℚ) {d : ℕ → ℚ} (hd : ∀ i, 0 ≤ d i) (C : Option ℚ) {tsp : CmtTsp}
    (ht : TspRoutine D tsp) (lam : ℚ) {m : CmtSeed} (hm : m ≠ .other) {order : List ℕ}
    (ho : order.Perm (List.range' 1 (N - 1))) {s s' : CmtOne}
    (hr : CmtOneReach D d C none tsp lam m ⟨order, [], [], 0⟩ s)
    (hs : cmtOneStep D d C none tsp lam m s = .ok s') :
    ∃ u, s'.sol = s.sol ++ 0 :: u ∧ ∀ i ∈ s'.unrouted, ¬ Within C C_EPS (demand d u + d i) := by
  obtain ⟨k, u, -, -, h3, -, -, h6⟩ := C38_choice D d C none ht lam hm ho hr hs
  refine ⟨u, h3, fun i hi hw => ?_⟩
  obtain ⟨v, v1, v2⟩ := h6 i hi
  rcases v1 with v1 | v1
  · refine v1 (within_mono hw ?_)
    have : demand d v ≤ demand d u := by
      rw [demand_perm d v2]
      exact demand_sublist hd List.filter_sublist
    linarith
  · exact v1.1 fun c hc => (by cases hc)

/-! ## The second phase -/

/-- The score of a customer for a route: what it is away from the depot and the seed of the route. -/
def eps (D : ℕ → ℕ → ℚ) (mu : ℚ) (seeds : List ℕ) (k n : ℕ) : ℚ :=
  D 0 n + mu * D n (seeds.getD k 0) - D 0 (seeds.getD k 0)

/-- The route at position `q` is the first one with the least score. -/
def Nearest (D : ℕ → ℕ → ℚ) (mu : ℚ) (seeds idxs : List ℕ) (n q : ℕ) : Prop :=
  ∃ A k B, idxs = A ++ k :: B ∧ A.length = q ∧ (∀ j ∈ A, eps D mu seeds k n < eps D mu seeds j n) ∧
    ∀ j ∈ B, eps D mu seeds k n ≤ eps D mu seeds j n

theorem cmtArgmin_first {vals : List ℚ} {q : ℕ} (h : cmtArgmin vals = some q) :
    ∃ A v B, vals = A ++ v :: B ∧ A.length = q ∧ (∀ x ∈ A, v < x) ∧ ∀ x ∈ B, v ≤ x := by
  unfold cmtArgmin at h
  have hq := List.mem_range.1 (gmArgmin_mem h)
  obtain ⟨A, B, e1, e2, e3⟩ := gmArgmin_first h
  have hlA : A.length = q := by
    have h1 : (List.range vals.length)[A.length]? = some q := by rw [e1]; simp
    rw [List.getElem?_range] at h1
    · injection h1
    · have := congrArg List.length e1
      simp at this; omega
  have hA : ∀ x ∈ A, x < q := by
    intro x hx
    have hs : (A ++ q :: B).Pairwise (· < ·) := e1 ▸ List.pairwise_lt_range
    exact (List.pairwise_append.1 hs).2.2 x hx q (by simp)
  have hmem : ∀ x < vals.length, x ∈ A ∨ x = q ∨ x ∈ B := by
    intro x hx
    have : x ∈ A ++ q :: B := e1 ▸ List.mem_range.2 hx
    simpa using this
  refine ⟨vals.take q, vals[q], vals.drop (q + 1), ?_, by simp; omega, ?_, ?_⟩
  · rw [← List.drop_eq_getElem_cons hq, List.take_append_drop]
  · intro x hx
    obtain ⟨i, hi, rfl⟩ := List.mem_iff_getElem.1 hx
    simp only [List.length_take] at hi
    rw [List.getElem_take]
    have hiA : i ∈ A := by
      rcases hmem i (by omega) with h1 | h1 | h1
      · exact h1
      · omega
      · exfalso
        have hs : (A ++ q :: B).Pairwise (· < ·) := e1 ▸ List.pairwise_lt_range
        have := (List.pairwise_cons.1 (List.pairwise_append.1 hs).2.1).1 i h1
        omega
    have := e2 i hiA
    rw [List.getD_eq_getElem _ _ hq, List.getD_eq_getElem _ _ (by omega)] at this
    exact this
  · intro x hx
    obtain ⟨i, hi, rfl⟩ := List.mem_iff_getElem.1 hx
    simp only [List.length_drop] at hi
    rw [List.getElem_drop]
    have hiB : q + 1 + i ∈ B := by
      rcases hmem (q + 1 + i) (by omega) with h1 | h1 | h1
      · have := hA _ h1; omega
      · omega
      · exact h1
    have := e3 _ hiB
    rw [List.getD_eq_getElem _ _ hq, List.getD_eq_getElem _ _ (by omega)] at this
    exact this

theorem cmtStar_nearest {D : ℕ → ℕ → ℚ} {p : CmtParams} {nth : ℕ} {idxs : List ℕ} {n q : ℕ}
    (h1 : nth = 1 ∨ idxs.length = 1) (h : cmtStar D p nth idxs n = .ok q) : Nearest D p.mu p.seeds idxs n q := by
  unfold cmtStar at h
  simp only [if_pos h1] at h
  cases hc : cmtArgmin (idxs.map fun k => cmtEps D p.mu (p.seeds.getD k 0) n) with
  | none => rw [hc] at h; cases h
  | some q' =>
    rw [hc] at h
    injection h with h
    subst h
    obtain ⟨A, v, B, e1, e2, e3, e4⟩ := cmtArgmin_first hc
    obtain ⟨A', t, rfl, rfl, e5⟩ := List.map_eq_append_iff.1 e1
    obtain ⟨k, B', rfl, rfl, rfl⟩ := List.map_eq_cons_iff.1 e5
    refine ⟨A', k, B', rfl, by simpa using e2, fun j hj => e3 _ (List.mem_map_of_mem hj), fun j hj => e4 _ (List.mem_map_of_mem hj)⟩

theorem nearest_unique {D : ℕ → ℕ → ℚ} {mu : ℚ} {seeds idxs : List ℕ} {n q q' : ℕ}
    (h : Nearest D mu seeds idxs n q) (h' : Nearest D mu seeds idxs n q') : q = q' := by
  have key : ∀ q q', Nearest D mu seeds idxs n q → Nearest D mu seeds idxs n q' → ¬ q < q' := by
    rintro q q' ⟨A, k, B, e, rfl, h1, h2⟩ ⟨A', k', B', e', rfl, h1', h2'⟩ hlt
    have hk : k ∈ A' := by
      have g1 : idxs[A.length]? = some k := by rw [e]; simp
      rw [e', List.getElem?_append_left hlt] at g1
      exact List.mem_of_getElem? g1
    have hk' : k' ∈ B := by
      have g1 : idxs[A'.length]? = some k' := by rw [e']; simp
      rw [e, List.getElem?_append_right hlt.le] at g1
      obtain ⟨c, hc⟩ : ∃ c, A'.length - A.length = c + 1 := ⟨A'.length - A.length - 1, by omega⟩
      rw [hc, List.getElem?_cons_succ] at g1
      exact List.mem_of_getElem? g1
    have := h1' k hk
    have := h2 k' hk'
    linarith
  have a := key q q' h h'
  have b := key q' q h' h
  omega

theorem cmtStars_mem {D : ℕ → ℕ → ℚ} {p : CmtParams} {nth : ℕ} {idxs : List ℕ} (h1 : nth = 1 ∨ idxs.length = 1)
    {un : List ℕ} {stars : List (ℕ × ℕ)} (h : cmtStars D p nth idxs un = .ok stars) :
    stars.map (·.2) = un ∧ ∀ x ∈ stars, Nearest D p.mu p.seeds idxs x.2 x.1 := by
  induction un generalizing stars with
  | nil => injection h with h; subst h; exact ⟨rfl, by simp⟩
  | cons n un ih =>
    unfold cmtStars at h
    cases hs : cmtStar D p nth idxs n with
    | error e => rw [hs] at h; cases h
    | ok q =>
      rw [hs] at h
      simp only at h
      cases ht : cmtStars D p nth idxs un with
      | error e => rw [ht] at h; cases h
      | ok qs =>
        rw [ht] at h
        injection h with h
        subst h
        obtain ⟨i1, i2⟩ := ih ht
        refine ⟨by simp [i1], fun x hx => ?_⟩
        rcases List.mem_cons.1 hx with rfl | hx
        · exact cmtStar_nearest h1 hs
        · exact i2 x hx

theorem cmtMin_spec (a : ℚ) (t : List ℚ) : cmtMin a t ∈ a :: t ∧ ∀ x ∈ a :: t, cmtMin a t ≤ x := by
  induction t generalizing a with
  | nil => simp [cmtMin]
  | cons b t ih =>
    obtain ⟨i1, i2⟩ := ih (min a b)
    unfold cmtMin
    constructor
    · rcases List.mem_cons.1 i1 with h | h
      · rw [h]
        rcases min_choice a b with h | h <;> rw [h] <;> simp
      · simp [h]
    · intro x hx
      have h0 := i2 (min a b) (by simp)
      rcases List.mem_cons.1 hx with rfl | hx
      · exact h0.trans (min_le_left _ _)
      · rcases List.mem_cons.1 hx with rfl | hx
        · exact h0.trans (min_le_right _ _)
        · exact i2 x (by simp [hx])

/-- The urgency of a customer for a route: how much worse the best one of the other routes left is. -/
def Urgency (D : ℕ → ℕ → ℚ) (mu : ℚ) (seeds rest : List ℕ) (k n : ℕ) (x : ℚ) : Prop :=
  (rest = [] ∧ x = - eps D mu seeds k n) ∨
    ∃ j ∈ rest, (∀ j' ∈ rest, eps D mu seeds j n ≤ eps D mu seeds j' n) ∧
      x = eps D mu seeds j n - eps D mu seeds k n

theorem cmtSigma_urgency (D : ℕ → ℕ → ℚ) (p : CmtParams) (k : ℕ) (rest : List ℕ) (n : ℕ) :
    Urgency D p.mu p.seeds rest k n (cmtSigma D p k rest n) := by
  unfold cmtSigma
  cases rest with
  | nil => exact .inl ⟨rfl, rfl⟩
  | cons j rest =>
    right
    simp only [List.map_cons]
    obtain ⟨h1, h2⟩ := cmtMin_spec (cmtEps D p.mu (p.seeds.getD j 0) n)
      (rest.map fun j => cmtEps D p.mu (p.seeds.getD j 0) n)
    rw [← List.map_cons (f := fun j => cmtEps D p.mu (p.seeds.getD j 0) n)] at h1 h2
    obtain ⟨j', hj', e⟩ := List.mem_map.1 h1
    refine ⟨j', hj', fun x hx => ?_, by rw [← e]; rfl⟩
    have := h2 _ (List.mem_map_of_mem hx)
    rw [← e] at this
    exact this

theorem cmtSigmas_sorted (D : ℕ → ℕ → ℚ) (p : CmtParams) (k : ℕ) (rest : List ℕ) {cols : List ℕ} (hn : cols.Nodup) :
    (cmtSigmas D p k rest cols).Pairwise fun x y => TupleLt (cmtSigma D p k rest) y x := by
  unfold cmtSigmas
  refine sorted_nodes (fun a b c h1 h2 => cmtLe_trans c b a h2 h1) (fun a b => cmtLe_total b a)
    (fun x y hne h => ?_) hn
  simp only [cmtLe, Bool.or_eq_true, Bool.and_eq_true, decide_eq_true_eq] at h
  rcases h with h | ⟨h1, h2⟩
  · exact .inl h
  · exact .inr ⟨h1, by omega⟩

/-- The customers that are taken, and what holds for the others. -/
theorem cmtTryAll_trace {D : ℕ → ℕ → ℚ} {d : ℕ → ℚ} {C L : Option ℚ} {P : Prop} {tsp : CmtTsp}
    (ht : TspRoutine D tsp) (k : ℕ) (is : List ℕ) {t : List ℕ} {s s' : CmtTry} (h : CmtOk D d C L P t s.r)
    (hn : (0 :: (t ++ s.unrouted)).Nodup) (his : ∀ i ∈ is, i ∈ s.unrouted) (hid : is.Nodup)
    (hf : cmtTryAll D d C L tsp k is s = .ok s') :
    ∃ t' acc, CmtOk D d C L P t' s'.r ∧ acc.Sublist is ∧ t'.Perm (t ++ acc) ∧ s.unrouted.Perm (acc ++ s'.unrouted) ∧
      (s'.made = true ∨ acc = []) ∧ (acc = [] → s'.r = s.r) ∧
      ∀ pre i post, is = pre ++ i :: post → i ∉ acc → (truthy L = true ∧ (k, i) ∈ s.infeasible) ∨
        ∃ v, v.Perm (t ++ acc.filter fun x => decide (x ∈ pre)) ∧ Refused D d C L tsp v i := by
  induction is generalizing t s with
  | nil =>
    injection hf with hf
    subst hf
    exact ⟨t, [], h, List.Sublist.refl _, by simp, by simp, .inr rfl, fun _ => rfl, by simp⟩
  | cons i is ih =>
    have hi := his i (by simp)
    have hsub : (t ++ s.unrouted).Perm (t ++ [i] ++ s.unrouted.erase i) := by
      have := List.perm_cons_erase hi
      refine (this.append_left t).trans ?_
      simp
    have hn' : (0 :: (t ++ [i] ++ s.unrouted.erase i)).Nodup := (hsub.cons 0).nodup_iff.1 hn
    have hn1 : (0 :: (t ++ [i])).Nodup := by
      rw [← List.cons_append] at hn'
      exact (List.nodup_append.1 hn').1
    obtain ⟨out, h1, h2⟩ := cmtInsert_spec (L := L) ht h hn1
    obtain ⟨hd1, hd2⟩ := List.nodup_cons.1 hid
    have his' : ∀ j ∈ is, j ∈ s.unrouted := fun j hj => his j (by simp [hj])
    have hrest : ∀ s1 : CmtTry, s1.r = s.r → s1.unrouted = s.unrouted →
        (∀ j ∈ is, (k, j) ∈ s1.infeasible → (k, j) ∈ s.infeasible) →
        ((truthy L = true ∧ (k, i) ∈ s.infeasible) ∨ Refused D d C L tsp t i) →
        cmtTryAll D d C L tsp k is s1 = .ok s' →
        ∃ t' acc, CmtOk D d C L P t' s'.r ∧ acc.Sublist (i :: is) ∧ t'.Perm (t ++ acc) ∧
          s.unrouted.Perm (acc ++ s'.unrouted) ∧ (s'.made = true ∨ acc = []) ∧ (acc = [] → s'.r = s.r) ∧
          ∀ pre j post, i :: is = pre ++ j :: post → j ∉ acc → (truthy L = true ∧ (k, j) ∈ s.infeasible) ∨
            ∃ v, v.Perm (t ++ acc.filter fun x => decide (x ∈ pre)) ∧ Refused D d C L tsp v j := by
      intro s1 q1 q2 q3 q4 hf
      obtain ⟨t', acc, e1, e2, e3, e4, e5, e6, e7⟩ := ih (s := s1) (q1 ▸ h) (q2 ▸ hn) (q2 ▸ his') hd2 hf
      rw [q2] at e4
      rw [q1] at e6
      refine ⟨t', acc, e1, e2.trans (List.sublist_cons_self _ _), e3, e4, e5, e6, ?_⟩
      intro pre j post e hj
      cases pre with
      | nil =>
        simp only [List.nil_append, List.cons.injEq] at e
        obtain ⟨rfl, -⟩ := e
        exact q4.imp id fun hrf => ⟨t, by simp, hrf⟩
      | cons q pre =>
        simp only [List.cons_append, List.cons.injEq] at e
        obtain ⟨rfl, e⟩ := e
        refine (e7 pre j post e hj).imp (fun hx => ⟨hx.1, q3 j (by rw [e]; simp) hx.2⟩) ?_
        rintro ⟨v, v1, v2⟩
        refine ⟨v, ?_, v2⟩
        rw [filter_mem_cons fun hx => hd1 (e2.subset hx)]
        exact v1
    unfold cmtTryAll cmtTryOne at hf
    rw [h1] at hf
    cases out with
    | overC => exact hrest s rfl rfl (fun _ _ hx => hx) (.inr (cmtInsert_refused h h1 (.inl rfl))) hf
    | overL =>
      simp only at hf
      by_cases hc : truthy L = true ∧ (k, i) ∈ s.infeasible
      · rw [if_pos hc] at hf
        exact hrest s rfl rfl (fun _ _ hx => hx) (.inl hc) hf
      · rw [if_neg hc] at hf
        refine hrest { s with infeasible := (k, i) :: s.infeasible } rfl rfl (fun j hj hx => ?_)
          (.inr (cmtInsert_refused h h1 (.inr rfl))) hf
        rcases List.mem_cons.1 hx with hx | hx
        · injection hx with _ hx
          exact absurd (hx ▸ hj) hd1
        · exact hx
    | accepted r1 =>
      simp only at hf
      by_cases hc : truthy L = true ∧ (k, i) ∈ s.infeasible
      · rw [if_pos hc] at hf
        exact hrest s rfl rfl (fun _ _ hx => hx) (.inl hc) hf
      · rw [if_neg hc, cmtRemove_mem hi] at hf
        simp only at hf
        obtain ⟨t1, g1, g2⟩ := h2 r1 rfl
        have hp : (t1 ++ s.unrouted.erase i).Perm (t ++ s.unrouted) := (g1.append_right _).trans hsub.symm
        obtain ⟨t', acc, e1, e2, e3, e4, e5, -, e7⟩ :=
          ih (s := { s with r := r1, unrouted := s.unrouted.erase i, made := true }) g2 ((hp.cons 0).nodup_iff.2 hn)
          (fun j hj => by
            have hne : j ≠ i := fun e => hd1 (e ▸ hj)
            exact (List.mem_erase_of_ne hne).2 (his' j hj)) hd2 hf
        have hmade : s'.made = true := by
          obtain ⟨s2, _, k1, _, _, k4, _⟩ := cmtTryAll_spec (L := L)
            (s := { s with r := r1, unrouted := s.unrouted.erase i, made := true }) ht k is g2 ((hp.cons 0).nodup_iff.2 hn)
            (fun j hj => by
              have hne : j ≠ i := fun e => hd1 (e ▸ hj)
              exact (List.mem_erase_of_ne hne).2 (his' j hj)) hd2
          rw [hf] at k1
          injection k1 with k1
          rw [k1]; exact k4 rfl
        refine ⟨t', i :: acc, e1, e2.cons_cons i, ?_, ?_, .inl hmade, (fun e => nomatch e), ?_⟩
        · refine e3.trans ((g1.append_right acc).trans ?_)
          simp
        · exact (List.perm_cons_erase hi).trans (e4.cons i)
        · intro pre j post e hj
          cases pre with
          | nil =>
            simp only [List.nil_append, List.cons.injEq] at e
            obtain ⟨rfl, -⟩ := e
            exact absurd (by simp) hj
          | cons q pre =>
            simp only [List.cons_append, List.cons.injEq] at e
            obtain ⟨rfl, e⟩ := e
            refine (e7 pre j post e fun hx => hj (by simp [hx])).imp id ?_
            rintro ⟨v, v1, v2⟩
            refine ⟨v, v1.trans ((g1.append_right _).trans ?_), v2⟩
            rw [List.filter_cons, if_pos (by simp), filter_mem_cons fun hx => hd1 (e2.subset hx)]
            simp

/-- A round from a state that satisfies the invariant. -/
theorem cmtTwoStep_round {N : ℕ} (D : ℕ → ℕ → ℚ) (d : ℕ → ℚ) (C L : Option ℚ) {tsp : CmtTsp} (ht : TspRoutine D tsp)
    {p : CmtParams} {s s' : CmtTwo} (h : CmtTwoInv N p.seeds.length D d C L False s)
    (h1 : s.nth = 1 ∨ s.idxs.length = 1) (hi : s.idxs ≠ []) (hs : cmtTwoStep D d C L tsp p s = .ok s') :
    ∃ (q k : ℕ) (near : ℕ → List ℕ) (r r' : CmtRoute) (acc : List ℕ) (sig : ℕ → ℚ),
      (∀ q, (near q).Sublist s.unrouted) ∧
      (∀ q, ∀ n ∈ s.unrouted, n ∈ near q ↔ Nearest D p.mu p.seeds s.idxs n q) ∧
      s.idxs[q]? = some k ∧ s'.idxs = s.idxs.erase k ∧
      (p.most = true → (∀ q' < q, (near q').length < (near q).length) ∧
        ∀ q' < s.idxs.length, (near q').length ≤ (near q).length) ∧
      (p.most = false → q = 0) ∧
      s.routes[k]? = some r ∧ s'.routes = s.routes.set k r' ∧ r'.route.tail.Perm (r.route.tail ++ acc) ∧
      (acc = [] → r' = r) ∧ s.unrouted.Perm (acc ++ s'.unrouted) ∧ (∀ n ∈ acc, n ∈ near q) ∧
      (∀ n, Urgency D p.mu p.seeds (s.idxs.erase k) k n (sig n)) ∧
      ∀ i ∈ near q, i ∈ s'.unrouted → (truthy L = true ∧ (k, i) ∈ s.infeasible) ∨
        ∃ v, Refused D d C L tsp v i ∧ v.Perm (r.route.tail ++ acc.filter fun x => decide (TupleLt sig i x)) := by
  unfold cmtTwoStep at hs
  rw [if_neg (fun hh => hh.1 h1)] at hs
  cases hst : cmtStars D p s.nth s.idxs s.unrouted with
  | error e => rw [hst] at hs; cases hs
  | ok stars =>
    rw [hst] at hs
    simp only at hs
    obtain ⟨st1, st2⟩ := cmtStars_mem h1 hst
    obtain ⟨q, c1, c2⟩ := cmtChoose_spec p hi stars
    rw [c1] at hs
    simp only at hs
    have hnd : (cmtCusts s.routes ++ s.unrouted).Nodup := h.perm.nodup_iff.2 List.nodup_range'
    obtain ⟨n1, n2, n3⟩ := List.nodup_append.1 hnd
    have hrng : ∀ x, x ∈ cmtCusts s.routes ∨ x ∈ s.unrouted → 1 ≤ x ∧ x < N := by
      intro x hx
      have := h.perm.mem_iff.1 (List.mem_append.2 hx)
      rw [List.mem_range'_1] at this
      omega
    have hk : s.idxs[q]? = some s.idxs[q] := List.getElem?_eq_getElem c2
    generalize s.idxs[q] = k at hk
    have hkK := h.idxs k (List.mem_of_getElem? hk)
    have hr : s.routes[k]? = some (s.routes[k]'(by rw [h.len]; exact hkK)) := List.getElem?_eq_getElem _
    generalize s.routes[k]'(by rw [h.len]; exact hkK) = r at hr
    have hrm := List.mem_of_getElem? hr
    have hrok := h.routes r hrm
    set near : ℕ → List ℕ := fun q => (stars.filter fun x => decide (x.1 = q)).map (·.2) with hnear
    have hsub : ∀ q, (near q).Sublist s.unrouted := by
      intro q
      rw [← st1, hnear]
      exact List.filter_sublist.map _
    have hiff : ∀ q, ∀ n ∈ s.unrouted, n ∈ near q ↔ Nearest D p.mu p.seeds s.idxs n q := by
      intro q n hn
      rw [← st1] at hn
      obtain ⟨x, hx, rfl⟩ := List.mem_map.1 hn
      constructor
      · intro hm
        obtain ⟨y, hy, e⟩ := List.mem_map.1 hm
        obtain ⟨hy1, hy2⟩ := List.mem_filter.1 hy
        have := st2 y hy1
        rw [e] at this
        rwa [of_decide_eq_true hy2] at this
      · intro hN
        have := nearest_unique (st2 x hx) hN
        exact List.mem_map.2 ⟨x, List.mem_filter.2 ⟨hx, by simpa using this⟩, rfl⟩
    have hsg := cmtSigmas_perm D p k (s.idxs.erase k) (near q)
    have hmemr : ∀ x ∈ r.route.tail, x ∈ cmtCusts s.routes := fun x hx => List.mem_flatMap.2 ⟨r, hrm, hx⟩
    have hrsub : r.route.tail.Sublist (cmtCusts s.routes) := by
      unfold cmtCusts
      rw [List.flatMap_def]
      exact List.sublist_flatten_of_mem (List.mem_map_of_mem hrm)
    have hn0 : (0 :: (r.route.tail ++ s.unrouted)).Nodup := by
      refine List.nodup_cons.2 ⟨fun hx => ?_, ?_⟩
      · rcases List.mem_append.1 hx with hx | hx
        · have := hrng 0 (.inl (hmemr 0 hx)); omega
        · have := hrng 0 (.inr hx); omega
      · exact List.Nodup.sublist (hrsub.append_right _) hnd
    have hnq := n2.sublist (hsub q)
    unfold cmtServe at hs
    rw [show idx s.idxs q = .ok k by rw [idx, hk]] at hs
    simp only at hs
    rw [show idx s.routes k = .ok r by rw [idx, hr]] at hs
    simp only at hs
    cases ha : cmtTryAll D d C L tsp k (cmtSigmas D p k (s.idxs.erase k) (near q)) ⟨r, s.unrouted, s.infeasible, s.made⟩ with
    | error e =>
      rw [show ((stars.filter fun x => decide (x.1 = q)).map (·.2)) = near q from rfl, ha] at hs; cases hs
    | ok t =>
      rw [show ((stars.filter fun x => decide (x.1 = q)).map (·.2)) = near q from rfl, ha] at hs
      injection hs with hs
      subst hs
      obtain ⟨t', acc, e1, e2, e3, e4, e5, e6, e7⟩ := cmtTryAll_trace ht k _
        (s := ⟨r, s.unrouted, s.infeasible, s.made⟩) hrok hn0 (fun i hi => (hsub q).subset (hsg.mem_iff.1 hi))
        (hsg.nodup_iff.2 hnq) ha
      simp only at e4 e6 e7
      have hset : s.routes.set k r = s.routes := by
        obtain ⟨w, e⟩ := List.getElem?_eq_some_iff.1 hr
        rw [← e]; exact List.set_getElem_self w
      refine ⟨q, k, near, r, t.r, acc, cmtSigma D p k (s.idxs.erase k), hsub, hiff, hk, rfl, ?_, ?_, hr, ?_, ?_, e6, e4,
        fun n hn => hsg.mem_iff.1 (e2.subset hn), fun n => cmtSigma_urgency D p k _ n, ?_⟩
      · intro hmost
        unfold cmtChoose at c1
        rw [if_pos hmost] at c1
        obtain ⟨A, B, f1, f2, f3⟩ := gmArgmin_first c1
        have hlen : ∀ q, ((stars.filter fun x => decide (x.1 = q)).length : ℚ) = ((near q).length : ℚ) := by
          intro q; rw [hnear]; simp
        have hsort : (A ++ q :: B).Pairwise (· < ·) := f1 ▸ List.pairwise_lt_range
        have hmem : ∀ x < s.idxs.length, x ∈ A ∨ x = q ∨ x ∈ B := by
          intro x hx
          have : x ∈ A ++ q :: B := f1 ▸ List.mem_range.2 hx
          simpa using this
        constructor
        · intro q' hq'
          have : q' ∈ A := by
            rcases hmem q' (by omega) with g | g | g
            · exact g
            · omega
            · have := (List.pairwise_cons.1 (List.pairwise_append.1 hsort).2.1).1 q' g
              omega
          have := f2 q' this
          simp only [hlen] at this
          have h3 : ((near q').length : ℚ) < ((near q).length : ℚ) := by linarith
          exact_mod_cast h3
        · intro q' hq'
          rcases hmem q' hq' with g | g | g
          · have := f2 q' g
            simp only [hlen] at this
            have h3 : ((near q').length : ℚ) ≤ ((near q).length : ℚ) := by linarith
            exact_mod_cast h3
          · rw [g]
          · have := f3 q' g
            simp only [hlen] at this
            have h3 : ((near q').length : ℚ) ≤ ((near q).length : ℚ) := by linarith
            exact_mod_cast h3
      · intro hmost
        unfold cmtChoose at c1
        rw [if_neg (by simp [hmost])] at c1
        injection c1 with c1
        exact c1.symm
      · simp only
        rcases e5 with e5 | e5
        · rw [if_pos e5]
        · rw [e6 e5, hset]; simp
      · rw [e1.shape]; exact e3
      · intro i hin hiu
        have hia : i ∉ acc := by
          intro hx
          have := e4.nodup_iff.1 n2
          exact (List.nodup_append.1 this).2.2 i hx i hiu rfl
        have hsorted := cmtSigmas_sorted D p k (s.idxs.erase k) hnq
        obtain ⟨pre, post, e⟩ := List.append_of_mem (hsg.mem_iff.2 hin)
        refine (e7 pre i post e hia).imp id ?_
        rintro ⟨v, v1, v2⟩
        refine ⟨v, v2, v1.trans (List.Perm.of_eq ?_)⟩
        congr 1
        refine List.filter_congr fun x hx => ?_
        have hxs := e2.subset hx
        rw [e] at hsorted hxs
        have := mem_before (fun _ _ hh => tupleLt_asymm hh) hsorted hxs fun ee => hia (ee ▸ hx)
        simp only [this]

/-- **C42**: a round of the second phase, as long as the nearest route is asked for or one route is left.
The route worked on is the first one left or, if asked for, the first of those that are the nearest one to the
most customers. Only customers whose nearest route it is are put into it, in the order of their urgency; the
other routes stay as they are. Those that are left were refused when tried, or are known not to fit because
they were refused before. -/
theorem C42_round {N : ℕ} (D : ℕ → ℕ → ℚ) (d : ℕ → ℚ) (C L : Option ℚ) {tsp : CmtTsp} (ht : TspRoutine D tsp)
    {p : CmtParams} (hs : p.ShuffleOk) (hK : p.seeds ≠ []) (hd : p.seeds.Nodup)
    (hr : ∀ k ∈ p.seeds, 1 ≤ k ∧ k < N) {order : List ℕ} (ho : order.Perm (List.range' 1 (N - 1)))
    {s0 s s' : CmtTwo} (hreach : CmtTwoReach D d C L tsp p (cmtTwoInit D d C p order) s0)
    (hre : cmtRefill p s0 = some s) (h1 : s.nth = 1 ∨ s.idxs.length = 1)
    (hst : cmtTwoStep D d C L tsp p s = .ok s') :
    ∃ (q k : ℕ) (near : ℕ → List ℕ) (r r' : CmtRoute) (acc : List ℕ) (sig : ℕ → ℚ),
      (∀ q, (near q).Sublist s.unrouted) ∧
      (∀ q, ∀ n ∈ s.unrouted, n ∈ near q ↔ Nearest D p.mu p.seeds s.idxs n q) ∧
      s.idxs[q]? = some k ∧ s'.idxs = s.idxs.erase k ∧
      (p.most = true → (∀ q' < q, (near q').length < (near q).length) ∧
        ∀ q' < s.idxs.length, (near q').length ≤ (near q).length) ∧
      (p.most = false → q = 0) ∧
      s.routes[k]? = some r ∧ s'.routes = s.routes.set k r' ∧ r'.route.tail.Perm (r.route.tail ++ acc) ∧
      (acc = [] → r' = r) ∧ s.unrouted.Perm (acc ++ s'.unrouted) ∧ (∀ n ∈ acc, n ∈ near q) ∧
      (∀ n, Urgency D p.mu p.seeds (s.idxs.erase k) k n (sig n)) ∧
      ∀ i ∈ near q, i ∈ s'.unrouted → (truthy L = true ∧ (k, i) ∈ s.infeasible) ∨
        ∃ v, Refused D d C L tsp v i ∧ v.Perm (r.route.tail ++ acc.filter fun x => decide (TupleLt sig i x)) := by
  have h : CmtTwoInv N p.seeds.length D d C L False s0 := by
    clear hre
    induction hreach with
    | refl => exact cmtTwoInit_inv (fun h => h.elim) hd hr ho
    | tail _ hst ih =>
      obtain ⟨z, h1, h2⟩ := hst
      obtain ⟨g1, g2, _⟩ := cmtRefill_spec hs hK ih h1
      obtain ⟨s', k1, k2, _⟩ := cmtTwoStep_spec ht (p := p) g1 g2
      rw [k1] at h2
      injection h2 with h2
      exact h2 ▸ k2
  obtain ⟨g1, g2, _⟩ := cmtRefill_spec hs hK h hre
  exact cmtTwoStep_round D d C L ht g1 h1 g2 hst

/-! ## Instances -/

/-- A round of the first phase: the farthest customer is the seed, the next one goes with it, and the others are
refused. -/
example : cmtOneStep cmtLine (fun _ => 1) (some 2) none (fun r => (r ++ [0], cost cmtLine (r ++ [0]))) 2 .farthest
    ⟨[1, 2, 3, 4], [], [], 0⟩ = .ok ⟨[1, 2], [4], [0, 4, 3], 8⟩ := by decide +kernel

/-- A round of the second phase. -/
example : ∃ s', cmtTwoStep cmtLine (fun _ => 1) (some 2) none (fun r => (r ++ [0], cost cmtLine (r ++ [0])))
      ⟨[4, 2], 2, true, none, fun _ => [0, 1], fun _ _ => []⟩
      { cmtTwoInit cmtLine (fun _ => 1) (some 2) ⟨[4, 2], 2, true, none, fun _ => [0, 1], fun _ _ => []⟩ [1, 2, 3, 4]
        with idxs := [0, 1], first := false } = .ok s' ∧ s'.idxs = [1] ∧ s'.unrouted = [1] ∧
      s'.routes.map (·.route) = [[0, 4, 3], [0, 2]] :=
  ⟨{ unrouted := [1], routes := [⟨[0, 4, 3], 2, 8, false⟩, ⟨[0, 2], 1, 4, true⟩], infeasible := [], nth := 1,
     idxs := [1], made := true, first := false }, by decide +kernel, rfl, rfl, rfl⟩

end Verif
