import Verif.Lemmas.SavingsVariants
import Verif.Lemmas.Solves

/-! # Lemmas about the savings algorithms with a local search -/

namespace Verif

open Spec

/-- What a local search with operators that change single routes makes of a solution. -/
structure InnerImproved (D : ℕ → ℕ → ℚ) (c0 c : List ℕ) : Prop where
  cheaper : cost D c ≤ cost D c0
  routes : (blocks c).length = (blocks c0).length
  same : ∀ b ∈ blocks c, ∃ b0 ∈ blocks c0, b.Perm b0

theorem InnerImproved.refl (D : ℕ → ℕ → ℚ) (c : List ℕ) : InnerImproved D c c :=
  ⟨le_refl _, rfl, fun b hb => ⟨b, hb, List.Perm.refl _⟩⟩

theorem solves_nodup {N : ℕ} {D : ℕ → ℕ → ℚ} {d : ℕ → ℚ} {C L : Option ℚ} {c : List ℕ} (h : Solves N D d C L c) :
    (customers c).Nodup :=
  h.covers.nodup_iff.2 ((List.pairwise_lt_range' 1).imp fun h => ne_of_lt h)

theorem without_empty_self {N : ℕ} {D : ℕ → ℕ → ℚ} {d : ℕ → ℚ} {C L : Option ℚ} {c : List ℕ}
    (h : Solves N D d C L c) : without_empty_routes c = c := by
  rw [without_empty_routes_eq_squeeze (chain_of_nodup (solves_nodup h)), h.noEmpty]

/-- The local search of a solution. -/
theorem inner_search {N : ℕ} {D : ℕ → ℕ → ℚ} (hD : Symm D) (h00 : D 0 0 = 0) {d : ℕ → ℚ} (hd0 : d 0 = 0)
    {C L : Option ℚ} {ops : List LsOp} (hops : ∀ op ∈ ops, op ∈ innerOps D) (st : LSOPT) (iter : ITEROPT)
    {c0 : List ℕ} (h : Solves N D d C L c0) :
    ∃ c, (∃ F, ∀ fuel, F ≤ fuel → do_local_search fuel ops c0 D (some d) st iter none = .ok (some c)) ∧
      Solves N D d C L c ∧ InnerImproved D c0 c ∧ OptRoutes D ops c := by
  obtain ⟨F, hF⟩ := C24_inner hD h00 hd0 C L hops st iter h.ends (solves_nodup h)
  obtain ⟨c, e, ⟨s1, s2, s3, s4⟩, hopt, hsq, hlen, hsame⟩ := hF F (le_refl _)
  exact ⟨c, ⟨F, fun fuel hf => local_search_more hf e⟩,
    ⟨s1, s2.trans h.covers, hsq, fun hs => s4 (h.feasible hs)⟩, ⟨s3, hlen, hsame⟩, hopt⟩

variable {N : ℕ} {D : ℕ → ℕ → ℚ} {d : ℕ → ℚ} {C L : Option ℚ} {mk : Bool}

theorem improve_spec (hD : Symm D) (h00 : D 0 0 = 0) (hd0 : d 0 = 0) (o : Bool) {c0 : List ℕ}
    (h : Solves N D d C L c0) :
    ∃ c, (∃ F, ∀ fuel, F ≤ fuel → paessensImprove fuel D d o (some c0) = .ok (some c)) ∧
      Solves N D d C L c ∧ InnerImproved D c0 c ∧ (o = true → OptRoutes D [op3opt D] c) ∧ (o = false → c = c0) := by
  cases o with
  | false =>
    refine ⟨c0, ⟨0, fun fuel _ => ?_⟩, h, InnerImproved.refl D c0, by simp, fun _ => rfl⟩
    simp only [paessensImprove, Bool.false_eq_true, if_false, without_empty_self h]
  | true =>
    obtain ⟨c, ⟨F, hF⟩, h1, h2, h3⟩ := inner_search hD h00 hd0 (ops := [op3opt D])
      (fun op ho => by simp only [List.mem_singleton] at ho; simp [innerOps, ho]) .BEST_ACCEPT .ALL_ACCEPT h
    refine ⟨c, ⟨F, fun fuel hf => ?_⟩, h1, h2, fun _ => h3, by simp⟩
    simp only [paessensImprove, if_true, Option.getD_some, hF fuel hf, without_empty_self h1]

/-- A run with the parameters `p` finds `c`. -/
def PaessensRun (N : ℕ) (D : ℕ → ℕ → ℚ) (d : ℕ → ℚ) (C L : Option ℚ) (mk o : Bool) (p : GF) (c : List ℕ) : Prop :=
  ∃ c0, SavRun N D d C L mk (paessens_savings_function N D p.1 p.2) c0 ∧
    Solves N D d C L c ∧ InnerImproved D c0 c ∧ (o = true → OptRoutes D [op3opt D] c) ∧ (o = false → c = c0)

theorem ranks_paessens (N : ℕ) (D : ℕ → ℕ → ℚ) (g f : ℚ) :
    Ranks N D (fun i j => D i 0 + D 0 j - g * D i j + f * |D i 0 - D 0 j|) (paessens_savings_function N D g f) :=
  ranks_sort _ _ _

/-- One step of the loop. -/
def paessensStep (D : ℕ → ℕ → ℚ) (mk : Bool) (st : Option (List ℕ × ℚ × ℚ) × Option GF) (z : GF × List ℕ) :
    Option (List ℕ × ℚ × ℚ) × Option GF :=
  (keepBetter D mk st.1 z.2, paessensBest D mk st.1 st.2 (some z.2) z.1)

theorem paessensStep_bestOf (D : ℕ → ℕ → ℚ) (mk : Bool) (zs : List (GF × List ℕ)) :
    (((zs.foldl (paessensStep D mk) (none, none)).1.map (·.1)), (zs.foldl (paessensStep D mk) (none, none)).2) =
      ((bestOf (fun z => cost D z.2) (fun z => (z.2.count 0 : ℚ) - 1) mk zs).map (·.2),
       (bestOf (fun z => cost D z.2) (fun z => (z.2.count 0 : ℚ) - 1) mk zs).map (·.1)) := by
  unfold bestOf
  have key : ∀ (zs : List (GF × List ℕ)) (b : Option (List ℕ × ℚ × ℚ)) (q : Option GF)
      (st : Option (GF × List ℕ) × Option ℚ × Option ℚ),
      b.map (·.1) = st.1.map (·.2) → q = st.1.map (·.1) → b.map (·.2.1) = st.2.1 → b.map (·.2.2) = st.2.2 →
      (((zs.foldl (paessensStep D mk) (b, q)).1.map (·.1)), (zs.foldl (paessensStep D mk) (b, q)).2) =
      (((zs.foldl (fun (st : Option (GF × List ℕ) × Option ℚ × Option ℚ) z =>
          if is_better_sol st.2.1 st.2.2 (some (cost D z.2)) (some ((z.2.count 0 : ℚ) - 1)) mk
          then (some z, some (cost D z.2), some ((z.2.count 0 : ℚ) - 1)) else st) st).1).map (·.2),
       ((zs.foldl (fun (st : Option (GF × List ℕ) × Option ℚ × Option ℚ) z =>
          if is_better_sol st.2.1 st.2.2 (some (cost D z.2)) (some ((z.2.count 0 : ℚ) - 1)) mk
          then (some z, some (cost D z.2), some ((z.2.count 0 : ℚ) - 1)) else st) st).1).map (·.1)) := by
    intro zs
    induction zs with
    | nil => intro b q st h1 h2 _ _; simp only [List.foldl_nil, h1, h2]
    | cons z zs ih =>
      intro b q st h1 h2 h3 h4
      rw [List.foldl_cons, List.foldl_cons]
      by_cases hb : is_better_sol st.2.1 st.2.2 (some (cost D z.2)) (some ((z.2.count 0 : ℚ) - 1)) mk = true
      · rw [if_pos hb]
        have e : paessensStep D mk (b, q) z = (some (z.2, cost D z.2, (z.2.count 0 : ℚ) - 1), some z.1) := by
          simp only [paessensStep, keepBetter, paessensBest, h3, h4, objf_eq_cost, hb, if_true]
        rw [e]
        exact ih _ _ _ rfl rfl rfl rfl
      · rw [if_neg hb]
        have e : paessensStep D mk (b, q) z = (b, q) := by
          simp only [paessensStep, keepBetter, paessensBest, h3, h4, objf_eq_cost, hb, Bool.false_eq_true, if_false]
        rw [e]
        exact ih b q st h1 h2 h3 h4
  exact key zs none none _ rfl rfl rfl rfl

/-- The best parameters and the best solution belong together. -/
theorem paessensStep_winner {zs : List (GF × List ℕ)} (hz : zs ≠ [])
    (hg : ∀ z ∈ zs, DepotEnds z.2 ∧ squeeze z.2 = z.2) :
    ∃ l p c r, zs = l ++ (p, c) :: r ∧ (zs.foldl (paessensStep D mk) (none, none)).1.map (·.1) = some c ∧
      (zs.foldl (paessensStep D mk) (none, none)).2 = some p ∧
      (∀ x ∈ l, Better mk (cost D c, ((blocks c).length : ℚ)) (cost D x.2, ((blocks x.2).length : ℚ))) ∧
      (∀ x ∈ r, ¬ Better mk (cost D x.2, ((blocks x.2).length : ℚ)) (cost D c, ((blocks c).length : ℚ))) := by
  obtain ⟨l, ⟨p, c⟩, r, e1, e2, e3, e4⟩ :=
    C04_bestOf (fun z : GF × List ℕ => cost D z.2) (fun z => (z.2.count 0 : ℚ) - 1) mk zs hz
  have e := paessensStep_bestOf D mk zs
  rw [e2] at e
  simp only [Prod.mk.injEq, Option.map_some] at e
  have hk : ∀ z ∈ zs, (z.2.count 0 : ℚ) - 1 = ((blocks z.2).length : ℚ) := fun z hz =>
    routes_count (hg z hz).1 (hg z hz).2
  have hc := hk (p, c) (by rw [e1]; simp)
  refine ⟨l, p, c, r, e1, e.1, e.2, fun x hx => ?_, fun x hx => ?_⟩
  · rw [← hk x (by rw [e1]; simp [hx]), ← hc]
    exact e3 x hx
  · rw [← hk x (by rw [e1]; simp [hx]), ← hc]
    exact e4 x hx

theorem paessensStep_fst (D : ℕ → ℕ → ℚ) (mk : Bool) : ∀ (zs : List (GF × List ℕ)) (st : Option (List ℕ × ℚ × ℚ) × Option GF),
    (zs.foldl (paessensStep D mk) st).1 = (zs.map (·.2)).foldl (keepBetter D mk) st.1
  | [], _ => rfl
  | z :: zs, st => by rw [List.foldl_cons, paessensStep_fst D mk zs]; rfl

/-- The parameters do not grow after this run. -/
def NoMore (strategy : PaessensStrategy) (k : ℕ) : Prop := ∀ q, paessensMore strategy (k + 1) q = .ok []

/-- A run with the parameters `p` finds `c`, and has enough fuel. -/
def PaessensDone (F N : ℕ) (D : ℕ → ℕ → ℚ) (d : ℕ → ℚ) (C L : Option ℚ) (mk o : Bool) (p : GF) (c : List ℕ) : Prop :=
  ∃ c0 seen, parallel_savings_init N D d C L mk (paessens_savings_function N D p.1 p.2) = .ok (some c0, seen) ∧
    (∀ fuel, F ≤ fuel → paessensImprove fuel D d o (some c0) = .ok (some c)) ∧
    Solves N D d C L c ∧ InnerImproved D c0 c ∧ (o = true → OptRoutes D [op3opt D] c) ∧ (o = false → c = c0)

theorem PaessensDone.run {F : ℕ} {o : Bool} {p : GF} {c : List ℕ} (h : PaessensDone F N D d C L mk o p c) :
    PaessensRun N D d C L mk o p c := by
  obtain ⟨c0, seen, h1, -, h2⟩ := h
  exact ⟨c0, ⟨seen, h1⟩, h2⟩

theorem PaessensDone.more {F F' : ℕ} (hF : F ≤ F') {o : Bool} {p : GF} {c : List ℕ} (h : PaessensDone F N D d C L mk o p c) :
    PaessensDone F' N D d C L mk o p c := by
  obtain ⟨c0, seen, h1, h2, h3⟩ := h
  exact ⟨c0, seen, h1, fun fuel hf => h2 fuel (le_trans hF hf), h3⟩

theorem paessensDone_exists (hN : 2 ≤ N) (hD : Symm D) (h00 : D 0 0 = 0) (hd0 : d 0 = 0) (C L : Option ℚ) (mk o : Bool) :
    ∀ ps : List GF, ∃ F cands, List.Forall₂ (PaessensDone F N D d C L mk o) ps cands
  | [] => ⟨0, [], .nil⟩
  | p :: ps => by
    obtain ⟨F1, cands, hc⟩ := paessensDone_exists hN hD h00 hd0 C L mk o ps
    obtain ⟨c0, seen, e, -, -⟩ := C25_solves hN hD d C L mk (ranks_valid (ranks_paessens N D p.1 p.2))
    have hs := (savRun_solves hN hD (ranks_valid (ranks_paessens N D p.1 p.2)) ⟨seen, e⟩).1
    obtain ⟨c, ⟨F2, hF2⟩, i1, i2, i3, i4⟩ := improve_spec hD h00 hd0 o hs
    refine ⟨max F1 F2, c :: cands, .cons ⟨c0, seen, e, fun fuel hf => hF2 fuel (le_trans (le_max_right _ _) hf), i1, i2, i3, i4⟩ ?_⟩
    exact hc.imp fun _ _ h => h.more (le_max_left _ _)

/-- One run. -/
theorem paessensRuns_one {F : ℕ} {o : Bool} {p : GF} {c : List ℕ} (h : PaessensDone F N D d C L mk o p c)
    {fuel : ℕ} (hf : F ≤ fuel) (strategy : PaessensStrategy) (int : Option (ℕ × SavInt)) (rest : List GF) (runs k : ℕ)
    (st : Option (List ℕ × ℚ × ℚ) × Option GF) (hi : savAt int k = none) {more : List GF}
    (hm : paessensMore strategy (k + 1) (paessensStep D mk st (p, c)).2 = .ok more) :
    paessensRuns fuel N D d C L mk strategy o int (runs + 1) (p :: rest) k st.1 st.2 =
      paessensRuns fuel N D d C L mk strategy o int runs (rest ++ more) (k + 1)
        (paessensStep D mk st (p, c)).1 (paessensStep D mk st (p, c)).2 := by
  obtain ⟨c0, seen, e, h2, -⟩ := h
  rw [paessensRuns, e]
  have hcall : paessensCall fuel D d o (some c0, seen) (savAt int k) = .ok (some (some c, false)) := by
    simp only [hi, paessensCall, savCaught, h2 fuel hf]
  simp only [hcall]
  rw [show paessensBest D mk st.1 st.2 (some c) p = (paessensStep D mk st (p, c)).2 from rfl, hm]
  rfl

/-- The runs with some parameters, in front of others. -/
theorem paessensRuns_append {F : ℕ} {o : Bool} (strategy : PaessensStrategy) {int : Option (ℕ × SavInt)}
    {fuel : ℕ} (hf : F ≤ fuel) (rest : List GF) (runs : ℕ) : ∀ {ps : List GF} {cands : List (List ℕ)},
    List.Forall₂ (PaessensDone F N D d C L mk o) ps cands → ∀ (k : ℕ) (st : Option (List ℕ × ℚ × ℚ) × Option GF),
      (∀ i, i < ps.length → NoMore strategy (k + i) ∧ savAt int (k + i) = none) →
      paessensRuns fuel N D d C L mk strategy o int (runs + ps.length) (ps ++ rest) k st.1 st.2 =
        paessensRuns fuel N D d C L mk strategy o int runs rest (k + ps.length)
          ((ps.zip cands).foldl (paessensStep D mk) st).1 ((ps.zip cands).foldl (paessensStep D mk) st).2 := by
  intro ps cands h
  induction h with
  | nil => intro k st _; rfl
  | @cons p c ps cands hp _ ih =>
    intro k st hk
    have ih := ih (k + 1) (paessensStep D mk st (p, c))
      (fun i hi => by rw [show k + 1 + i = k + (i + 1) by omega]; exact hk (i + 1) (by simp only [List.length_cons]; omega))
    rw [List.length_cons, List.cons_append, show runs + (ps.length + 1) = runs + ps.length + 1 by omega]
    have h0 := hk 0 (by simp)
    rw [Nat.add_zero] at h0
    rw [paessensRuns_one hp hf strategy int (ps ++ rest) (runs + ps.length) k st h0.2 (h0.1 _), List.append_nil, ih]
    rw [List.zip_cons_cons, List.foldl_cons, show k + 1 + ps.length = k + (ps.length + 1) by omega]

theorem paessensStart_M1 : paessensStart .M1 = planM1 := by decide +kernel

theorem paessensStart_M4 : paessensStart .M4 = planM4 := by decide +kernel

theorem paessensAround_eq (p : GF) : paessensAround p = planAround p := by
  simp only [paessensAround, planAround, List.map_cons, List.map_nil, List.cons.injEq, Prod.mk.injEq]
  refine ⟨⟨?_, ?_⟩, ⟨?_, ?_⟩, ⟨?_, ?_⟩, ⟨?_, ?_⟩, trivial⟩ <;> norm_num <;> ring

/-- The parameters that are tried, with the solutions found: for `M4` four, and then four around the best. -/
def PaessensPlan (D : ℕ → ℕ → ℚ) (mk : Bool) : PaessensStrategy → List GF → List (List ℕ) → Prop
  | .M1, ps, _ => ps = planM1
  | .list l, ps, _ => ps = l
  | .M4, ps, cands => ∃ p, ps = planM4 ++ planAround p ∧ ∃ c, Winner D mk (cands.take 4) c ∧
      ∃ i, i < 4 ∧ ps[i]? = some p ∧ cands[i]? = some c ∧ ∀ j < i, cands[j]? ≠ some c

/-- The same in the terms of the model. -/
def PaessensPlan0 (D : ℕ → ℕ → ℚ) (mk : Bool) : PaessensStrategy → List GF → List (List ℕ) → Prop
  | .M1, ps, _ => ps = paessensStart .M1
  | .list l, ps, _ => ps = l
  | .M4, ps, cands => ∃ p, ps = paessensStart .M4 ++ paessensAround p ∧ ∃ c, Winner D mk (cands.take 4) c ∧
      ∃ i, i < 4 ∧ ps[i]? = some p ∧ cands[i]? = some c ∧ ∀ j < i, cands[j]? ≠ some c

theorem PaessensPlan0.plan {D : ℕ → ℕ → ℚ} {mk : Bool} {strategy : PaessensStrategy} {ps : List GF} {cands : List (List ℕ)}
    (h : PaessensPlan0 D mk strategy ps cands) : PaessensPlan D mk strategy ps cands := by
  cases strategy with
  | M1 => exact h.trans paessensStart_M1
  | list l => exact h
  | M4 =>
    obtain ⟨p, h, h'⟩ := h
    exact ⟨p, by rw [h, paessensStart_M4, paessensAround_eq], h'⟩


theorem noMore_other {strategy : PaessensStrategy} (h : strategy ≠ .M4) (k : ℕ) : NoMore strategy k := by
  intro q
  cases strategy with
  | M1 => rfl
  | M4 => exact absurd rfl h
  | list l => rfl

theorem noMore_M4 {k : ℕ} (h : k ≠ 3) : NoMore .M4 k := by
  intro q
  simp only [paessensMore]
  rw [if_neg (by omega)]

theorem forall₂_take {α β : Type} {R : α → β → Prop} {l : List α} {l' : List β} (h : List.Forall₂ R l l') (n : ℕ) :
    List.Forall₂ R (l.take n) (l'.take n) := by
  induction h generalizing n with
  | nil => simp
  | cons h _ ih => cases n with
    | zero => simp
    | succ n => exact .cons h (ih n)

theorem forall₂_append' {α β : Type} {R : α → β → Prop} {l m : List α} {l' m' : List β} (h : List.Forall₂ R l l')
    (h' : List.Forall₂ R m m') : List.Forall₂ R (l ++ m) (l' ++ m') := by
  induction h with
  | nil => exact h'
  | cons h _ ih => exact .cons h ih

theorem paessens_prefix0 (hN : 2 ≤ N) (hD : Symm D) (h00 : D 0 0 = 0) (hd0 : d 0 = 0) (C L : Option ℚ) (mk o : Bool)
    (strategy : PaessensStrategy) :
    ∃ F ps cands, PaessensPlan0 D mk strategy ps cands ∧ List.Forall₂ (PaessensDone F N D d C L mk o) ps cands ∧
      ∀ fuel, F ≤ fuel → ∀ (int : Option (ℕ × SavInt)) (j : ℕ), j ≤ ps.length → (∀ i < j, savAt int i = none) →
      ∃ rest : List GF, rest.head? = ps[j]? ∧ ∀ runs,
        paessensRuns fuel N D d C L mk strategy o int (runs + j) (paessensStart strategy) 0 none none =
          paessensRuns fuel N D d C L mk strategy o int runs rest j
            ((ps.zip cands).take j |>.foldl (paessensStep D mk) (none, none)).1
            ((ps.zip cands).take j |>.foldl (paessensStep D mk) (none, none)).2 := by
  have hzip : ∀ (ps : List GF) (cs : List (List ℕ)) n, (ps.zip cs).take n = (ps.take n).zip (cs.take n) :=
    fun ps cs n => List.take_zipWith
  by_cases hs : strategy = .M4
  · subst hs
    obtain ⟨F1, c1, h1⟩ := paessensDone_exists hN hD h00 hd0 C L mk o (paessensStart .M4)
    have hl1 : c1.length = 4 := by rw [← h1.length_eq]; rfl
    have hgood : ∀ z ∈ (paessensStart .M4).zip c1, DepotEnds z.2 ∧ squeeze z.2 = z.2 := by
      intro z hz
      obtain ⟨i, hi, e⟩ := List.mem_iff_getElem.1 hz
      have hi' : i < (paessensStart .M4).length ∧ i < c1.length := by simpa using hi
      have := (List.forall₂_iff_get.1 h1).2 i hi'.1 hi'.2
      obtain ⟨c0, seen, -, -, hS, -⟩ := this
      rw [← e, List.getElem_zip]
      exact ⟨hS.ends, hS.noEmpty⟩
    obtain ⟨l, p, c, r, w1, w2, w3, w4, w5⟩ := paessensStep_winner (D := D) (mk := mk)
      (zs := (paessensStart .M4).zip c1) (by
        intro h
        have := congrArg List.length h
        simp [hl1, paessensStart] at this) hgood
    obtain ⟨F2, c2, h2⟩ := paessensDone_exists hN hD h00 hd0 C L mk o (paessensAround p)
    have hF : List.Forall₂ (PaessensDone (max F1 F2) N D d C L mk o) (paessensStart .M4 ++ paessensAround p) (c1 ++ c2) :=
      forall₂_append' (h1.imp fun _ _ h => h.more (le_max_left _ _)) (h2.imp fun _ _ h => h.more (le_max_right _ _))
    have hsplit : paessensStart .M4 = l.map (·.1) ++ p :: r.map (·.1) ∧ c1 = l.map (·.2) ++ c :: r.map (·.2) := by
      have a1 := congrArg (List.map Prod.fst) w1
      have a2 := congrArg (List.map Prod.snd) w1
      rw [List.map_fst_zip (by rw [hl1]; decide)] at a1
      rw [List.map_snd_zip (by rw [hl1]; decide)] at a2
      exact ⟨by simpa using a1, by simpa using a2⟩
    refine ⟨max F1 F2, _, c1 ++ c2, ⟨p, rfl, c, ?_, l.length, ?_, ?_, ?_, ?_⟩, hF, ?_⟩
    · rw [List.take_append_of_le_length (by omega), List.take_of_length_le (by omega), hsplit.2]
      refine ⟨_, _, rfl, ?_, ?_⟩
      · intro x hx
        obtain ⟨z, hz, rfl⟩ := List.mem_map.1 hx
        exact w4 z hz
      · intro x hx
        obtain ⟨z, hz, rfl⟩ := List.mem_map.1 hx
        exact w5 z hz
    · have := congrArg List.length hsplit.1
      simp only [paessensStart, List.length_cons, List.length_nil, List.length_append, List.length_map] at this
      omega
    · rw [hsplit.1, List.append_assoc, List.getElem?_append_right (by simp)]
      simp
    · rw [hsplit.2, List.append_assoc, List.getElem?_append_right (by simp)]
      simp
    · intro j hj hc
      have hjl : j < (l.map (·.2)).length := by simpa using hj
      rw [hsplit.2, List.append_assoc, List.getElem?_append_left hjl] at hc
      have hm := List.mem_of_getElem? hc
      obtain ⟨z, hz, e⟩ := List.mem_map.1 hm
      have := w4 z hz
      rw [e] at this
      exact better_irrefl mk _ this
    · intro fuel hf int j hj hint
      have hf1 : max F1 F2 ≤ fuel := hf
      have hlen : (paessensStart .M4 ++ paessensAround p).length = 8 := rfl
      by_cases hj4 : j < 4
      · refine ⟨(paessensStart .M4).drop j, ?_, fun runs => ?_⟩
        · rw [List.head?_drop, List.getElem?_append_left (by simpa [paessensStart] using hj4)]
        · have := paessensRuns_append .M4 (int := int) hf1 ((paessensStart .M4).drop j) runs (forall₂_take hF j) 0 (none, none)
            (fun i hi => by
              have hi : i < j := lt_of_lt_of_le hi (by simp)
              exact ⟨noMore_M4 (by omega), by rw [Nat.zero_add]; exact hint i hi⟩)
          have hlj : ((paessensStart .M4 ++ paessensAround p).take j).length = j := by
            rw [List.length_take, hlen]; omega
          rw [hlj, List.take_append_of_le_length (by simp only [paessensStart, List.length_cons, List.length_nil]; omega),
            List.take_append_drop, Nat.zero_add] at this
          have e : (paessensStart .M4 ++ paessensAround p).take j = (paessensStart .M4).take j :=
            List.take_append_of_le_length (by simp only [paessensStart, List.length_cons, List.length_nil]; omega)
          rw [this, hzip, e]
      · push Not at hj4
        refine ⟨(paessensAround p).drop (j - 4), ?_, fun runs => ?_⟩
        · rw [List.head?_drop, List.getElem?_append_right (by simpa [paessensStart] using hj4)]
          rfl
        · -- three runs, the fourth, and those around the best
          obtain ⟨q1, q2, q3, q4, hq⟩ : ∃ q1 q2 q3 q4, paessensStart .M4 = [q1, q2, q3, q4] := ⟨_, _, _, _, rfl⟩
          obtain ⟨x1, x2, x3, x4, hx⟩ : ∃ x1 x2 x3 x4, c1 = [x1, x2, x3, x4] := by
            match c1, hl1 with
            | [x1, x2, x3, x4], _ => exact ⟨x1, x2, x3, x4, rfl⟩
          have t3 := paessensRuns_append .M4 (int := int) hf1 [q4] (runs + (j - 4) + 1) (forall₂_take hF 3) 0 (none, none)
            (fun i hi => by
              have hi : i < 3 := lt_of_lt_of_le hi (by simp)
              exact ⟨noMore_M4 (by omega), by rw [Nat.zero_add]; exact hint i (by omega)⟩)
          have hF4 : PaessensDone (max F1 F2) N D d C L mk o q4 x4 := by
            rw [hq, hx] at h1
            have := h1
            simp only [List.forall₂_cons] at this
            exact this.2.2.2.1.more (le_max_left _ _)
          have hw3 := w3
          rw [hq, hx] at t3 hw3
          simp only [List.cons_append, List.nil_append, List.take_succ_cons, List.take_zero, List.length_cons,
            List.length_nil, List.zip_cons_cons, List.zip_nil_left, List.foldl_cons, List.foldl_nil, Nat.zero_add] at t3 hw3
          have hw3' := hw3
          rw [hq]
          rw [show runs + j = runs + (j - 4) + 1 + 3 by omega, t3]
          have t4 := paessensRuns_one hF4 hf1 .M4 int [] (runs + (j - 4)) 3
            (paessensStep D mk (paessensStep D mk (paessensStep D mk (none, none) (q1, x1)) (q2, x2)) (q3, x3))
            (hint 3 (by omega)) (more := paessensAround p) (by rw [hw3']; rfl)
          rw [t4, List.nil_append]
          have hr := paessensRuns_append .M4 (int := int) hf1 ((paessensAround p).drop (j - 4)) runs
            (forall₂_take (h2.imp fun _ _ h => h.more (le_max_right F1 F2)) (j - 4)) 4
            (paessensStep D mk (paessensStep D mk (paessensStep D mk (paessensStep D mk (none, none) (q1, x1)) (q2, x2)) (q3, x3)) (q4, x4))
            (fun i hi => by
              have hi : i < j - 4 := lt_of_lt_of_le hi (by simp)
              exact ⟨noMore_M4 (by omega), hint _ (by omega)⟩)
          have hla : ((paessensAround p).take (j - 4)).length = j - 4 := by
            rw [List.length_take]
            simp only [paessensAround, List.length_cons, List.length_nil]
            rw [hlen] at hj
            omega
          rw [List.take_append_drop, hla, show 4 + (j - 4) = j by omega] at hr
          rw [hr, hzip, hx]
          obtain ⟨m, rfl⟩ : ∃ m, j = m + 4 := ⟨j - 4, by omega⟩
          simp only [Nat.add_sub_cancel, List.cons_append, List.nil_append, List.take_succ_cons, List.zip_cons_cons, List.foldl_cons]
  · obtain ⟨F, cands, h⟩ := paessensDone_exists hN hD h00 hd0 C L mk o (paessensStart strategy)
    refine ⟨F, paessensStart strategy, cands, ?_, h, ?_⟩
    · cases strategy with
      | M1 => rfl
      | M4 => exact absurd rfl hs
      | list l => rfl
    · intro fuel hf int j hj hint
      refine ⟨(paessensStart strategy).drop j, by rw [List.head?_drop], fun runs => ?_⟩
      have := paessensRuns_append strategy (int := int) hf ((paessensStart strategy).drop j) runs (forall₂_take h j) 0 (none, none)
        (fun i hi => by
          have hi : i < j := lt_of_lt_of_le hi (by simp)
          exact ⟨noMore_other hs _, by rw [Nat.zero_add]; exact hint i hi⟩)
      rw [List.take_append_drop, List.length_take, Nat.min_eq_left hj, Nat.zero_add] at this
      rw [this, hzip]

theorem paessens_prefix (hN : 2 ≤ N) (hD : Symm D) (h00 : D 0 0 = 0) (hd0 : d 0 = 0) (C L : Option ℚ) (mk o : Bool)
    (strategy : PaessensStrategy) :
    ∃ F ps cands, PaessensPlan D mk strategy ps cands ∧ List.Forall₂ (PaessensDone F N D d C L mk o) ps cands ∧
      ∀ fuel, F ≤ fuel → ∀ (int : Option (ℕ × SavInt)) (j : ℕ), j ≤ ps.length → (∀ i < j, savAt int i = none) →
      ∃ rest : List GF, rest.head? = ps[j]? ∧ ∀ runs,
        paessensRuns fuel N D d C L mk strategy o int (runs + j) (paessensStart strategy) 0 none none =
          paessensRuns fuel N D d C L mk strategy o int runs rest j
            ((ps.zip cands).take j |>.foldl (paessensStep D mk) (none, none)).1
            ((ps.zip cands).take j |>.foldl (paessensStep D mk) (none, none)).2 := by
  obtain ⟨F, ps, cands, h1, h2⟩ := paessens_prefix0 hN hD h00 hd0 C L mk o strategy
  exact ⟨F, ps, cands, h1.plan, h2⟩

end Verif
