import Verif.Model.Sweep
import Verif.Spec.Construct
import Verif.Spec.Ends
import Verif.Lemmas.ParallelSavings

/-! # Lemmas on the sweep -/

namespace Verif

open Spec

/-! ## Positions -/

/-- The position after `k` steps. -/
def posAt (fwd : Bool) (n pos k : ℕ) : ℕ := (pos + (if fwd then 1 else n - 1) * k) % n

theorem posAt_lt (fwd : Bool) {n : ℕ} (hn : 0 < n) (pos k : ℕ) : posAt fwd n pos k < n := Nat.mod_lt _ hn

theorem posAt_zero (fwd : Bool) {n pos : ℕ} (h : pos < n) : posAt fwd n pos 0 = pos := by
  simp [posAt, Nat.mod_eq_of_lt h]

theorem sweepStep_eq (fwd : Bool) {n pos : ℕ} (h : pos < n) :
    sweepStep fwd pos (n - 1) = (pos + (if fwd then 1 else n - 1)) % n := by
  unfold sweepStep
  cases fwd
  · simp only [Bool.false_eq_true, if_false]
    by_cases h0 : pos = 0
    · rw [if_pos h0, h0, Nat.zero_add, Nat.mod_eq_of_lt (by omega)]
    · rw [if_neg h0]
      have : pos + (n - 1) = n + (pos - 1) := by omega
      rw [this, Nat.add_mod_left, Nat.mod_eq_of_lt (by omega)]
  · simp only [if_true]
    by_cases h0 : n - 1 < pos + 1
    · rw [if_pos h0]
      have : pos + 1 = n := by omega
      rw [this, Nat.mod_self]
    · rw [if_neg h0, Nat.mod_eq_of_lt (by omega)]

theorem sweepStep_posAt (fwd : Bool) {n : ℕ} (hn : 0 < n) (pos k : ℕ) :
    sweepStep fwd (posAt fwd n pos k) (n - 1) = posAt fwd n pos (k + 1) := by
  rw [sweepStep_eq fwd (posAt_lt fwd hn pos k)]
  unfold posAt
  rw [Nat.mod_add_mod, Nat.mul_succ, Nat.add_assoc]

theorem posAt_shift (fwd : Bool) {n : ℕ} {pos : ℕ} (h : pos < n) (k : ℕ) :
    posAt fwd n (sweepStep fwd pos (n - 1)) k = posAt fwd n pos (k + 1) := by
  rw [sweepStep_eq fwd h]
  unfold posAt
  rw [Nat.mod_add_mod, Nat.mul_succ]
  congr 1
  omega

/-- Each position is reached within a circle. -/
theorem posAt_reach (fwd : Bool) {n pos q : ℕ} (h : pos < n) (hq : q < n) :
    ∃ k, 1 ≤ k ∧ k ≤ n ∧ posAt fwd n pos k = q := by
  unfold posAt
  cases fwd
  · simp only [Bool.false_eq_true, if_false]
    have key : ∀ k m, pos + n * k = q + n * m + k → (pos + (n - 1) * k) % n = q := by
      intro k m e
      have e1 : (n - 1) * k + k = n * k := by
        rw [← Nat.succ_mul]; congr 1; omega
      have e2 : pos + (n - 1) * k = q + n * m := by omega
      rw [e2, Nat.add_mul_mod_self_left, Nat.mod_eq_of_lt hq]
    by_cases hlt : q < pos
    · refine ⟨pos - q, by omega, by omega, key _ (pos - q) ?_⟩
      omega
    · refine ⟨pos + n - q, by omega, by omega, key _ (pos + n - q - 1) ?_⟩
      have : n * (pos + n - q) = n * (pos + n - q - 1) + n := by
        rw [← Nat.mul_succ]; congr 1; omega
      omega
  · simp only [if_true, Nat.one_mul]
    by_cases hlt : pos < q
    · refine ⟨q - pos, by omega, by omega, ?_⟩
      rw [Nat.add_sub_of_le hlt.le, Nat.mod_eq_of_lt hq]
    · refine ⟨n - pos + q, by omega, by omega, ?_⟩
      have : pos + (n - pos + q) = n + q := by omega
      rw [this, Nat.add_mod_left, Nat.mod_eq_of_lt hq]

/-- One does not return to the start earlier. -/
theorem posAt_ne (fwd : Bool) {n pos k : ℕ} (h : pos < n) (hk : 1 ≤ k) (hk' : k < n) :
    posAt fwd n pos k ≠ pos := by
  unfold posAt
  cases fwd
  · simp only [Bool.false_eq_true, if_false]
    have e1 : (n - 1) * k + k = n * k := by
      rw [← Nat.succ_mul]; congr 1; omega
    by_cases hlt : k ≤ pos
    · have e2 : pos + (n - 1) * k = (pos - k) + n * k := by omega
      rw [e2, Nat.add_mul_mod_self_left, Nat.mod_eq_of_lt (by omega)]
      omega
    · have e3 : n * k = n * (k - 1) + n := by rw [← Nat.mul_succ]; congr 1; omega
      have e2 : pos + (n - 1) * k = (pos + n - k) + n * (k - 1) := by omega
      rw [e2, Nat.add_mul_mod_self_left, Nat.mod_eq_of_lt (by omega)]
      omega
  · simp only [if_true, Nat.one_mul]
    by_cases hlt : pos + k < n
    · rw [Nat.mod_eq_of_lt hlt]; omega
    · have : pos + k = n + (pos + k - n) := by omega
      rw [this, Nat.add_mod_left, Nat.mod_eq_of_lt (by omega)]
      omega

theorem posAt_full (fwd : Bool) {n pos : ℕ} (h : pos < n) : posAt fwd n pos n = pos := by
  unfold posAt
  rw [Nat.mul_comm, Nat.add_mul_mod_self_left, Nat.mod_eq_of_lt h]

/-! ## The scan for the next node -/

theorem idx_lt {α : Type} {l : List α} {i : ℕ} (h : i < l.length) : idx l i = .ok l[i] := by
  simp [idx, h]

/-- What the scan finds. -/
def ScanSpec (nodes : List ℕ) (routed : ℕ → Bool) (start : ℕ) (r : ℕ × Option ℕ) : Prop :=
  (∃ n, r.2 = some n ∧ nodes[r.1]? = some n ∧ routed n = false) ∨
  (r = (start, none) ∧ ∀ n ∈ nodes, routed n = true)

theorem swScan_aux (fwd : Bool) (nodes : List ℕ) (routed : ℕ → Bool) {start : ℕ}
    (hs : start < nodes.length) (r j : ℕ) (hr : 1 ≤ r) (e : j + r = nodes.length)
    (hd : ∀ i, 1 ≤ i → i ≤ j → ∀ n, nodes[posAt fwd nodes.length start i]? = some n → routed n = true) :
    ∃ x, ScanSpec nodes routed start x ∧ ∀ fuel, r ≤ fuel →
      swScan fwd nodes routed start fuel (posAt fwd nodes.length start j) = .ok (some x) := by
  induction r generalizing j with
  | zero => omega
  | succ r ih =>
    have hn : 0 < nodes.length := by omega
    have hp := posAt_lt fwd hn start (j + 1)
    have step : ∀ fuel, swScan fwd nodes routed start (fuel + 1) (posAt fwd nodes.length start j) =
        if !routed nodes[posAt fwd nodes.length start (j + 1)] then
          .ok (some (posAt fwd nodes.length start (j + 1),
            some nodes[posAt fwd nodes.length start (j + 1)]))
        else if posAt fwd nodes.length start (j + 1) = start then
          .ok (some (posAt fwd nodes.length start (j + 1), none))
        else swScan fwd nodes routed start fuel (posAt fwd nodes.length start (j + 1)) := by
      intro fuel
      rw [swScan]
      simp only [sweepStep_posAt fwd hn, idx_lt hp]
    by_cases h1 : routed nodes[posAt fwd nodes.length start (j + 1)] = true
    · have hd' : ∀ i, 1 ≤ i → i ≤ j + 1 → ∀ n,
          nodes[posAt fwd nodes.length start i]? = some n → routed n = true := by
        intro i hi1 hi2 n hn'
        by_cases e' : i = j + 1
        · subst e'
          rw [List.getElem?_eq_getElem hp, Option.some.injEq] at hn'
          rw [← hn']; exact h1
        · exact hd i hi1 (by omega) n hn'
      by_cases h2 : posAt fwd nodes.length start (j + 1) = start
      · have hlast : j + 1 = nodes.length := by
          by_contra hne
          exact posAt_ne fwd hs (by omega) (by omega) h2
        refine ⟨(start, none), Or.inr ⟨rfl, fun n hmem => ?_⟩, fun fuel hf => ?_⟩
        · obtain ⟨q, hq, rfl⟩ := List.mem_iff_getElem.1 hmem
          obtain ⟨k, hk1, hk2, hk3⟩ := posAt_reach fwd hs hq
          exact hd' k hk1 (by omega) _ (by rw [hk3]; exact List.getElem?_eq_getElem hq)
        · obtain ⟨fuel, rfl⟩ : ∃ f, fuel = f + 1 := ⟨fuel - 1, by omega⟩
          rw [step, if_neg (by simp [h1]), if_pos h2, h2]
      · have hr1 : 1 ≤ r := by
          by_contra hne
          have : j + 1 = nodes.length := by omega
          rw [this] at h2
          exact h2 (posAt_full fwd hs)
        obtain ⟨x, hx, hf⟩ := ih (j + 1) hr1 (by omega) hd'
        refine ⟨x, hx, fun fuel hfu => ?_⟩
        obtain ⟨fuel, rfl⟩ : ∃ f, fuel = f + 1 := ⟨fuel - 1, by omega⟩
        rw [step, if_neg (by simp [h1]), if_neg h2]
        exact hf fuel (by omega)
    · refine ⟨(posAt fwd nodes.length start (j + 1), some nodes[posAt fwd nodes.length start (j + 1)]),
        Or.inl ⟨_, rfl, List.getElem?_eq_getElem hp, by simpa using h1⟩, fun fuel hf => ?_⟩
      obtain ⟨fuel, rfl⟩ : ∃ f, fuel = f + 1 := ⟨fuel - 1, by omega⟩
      rw [step, if_pos (by simpa using h1)]

theorem swScan_spec (fwd : Bool) (nodes : List ℕ) (routed : ℕ → Bool) {start : ℕ}
    (hs : start < nodes.length) :
    ∃ x, ScanSpec nodes routed start x ∧
      Ends (fun fuel => swScan fwd nodes routed start fuel start) x := by
  obtain ⟨x, hx, h⟩ := swScan_aux fwd nodes routed hs nodes.length 0 (by omega) (by omega)
    (fun i h1 h2 => by omega)
  refine ⟨x, hx, nodes.length, fun fuel hf => ?_⟩
  have := h fuel hf
  rwa [posAt_zero fwd hs] at this

/-! ## The removal of nodes for the cost limit -/

section

variable {D : ℕ → ℕ → ℚ} {d : ℕ → ℚ} {C L : Option ℚ} {fwd : Bool} {nodes : List ℕ} {tsp : Router}

/-- The route has the tour of its nodes, and their demand. -/
structure Toured (d : ℕ → ℚ) (C : Option ℚ) (tsp : Router) (t : List ℕ) (cur : SwRoute) : Prop where
  set : cur.node_set = 0 :: t
  tour : (cur.route, cur.cost) = tsp (0 :: t)
  dem : truthy C = true → cur.demand = demand d t

/-- What the removal leaves. -/
structure Removed (d : ℕ → ℚ) (C L : Option ℚ) (nodes : List ℕ) (tsp : Router) (t : List ℕ)
    (routed : ℕ → Bool) (lpos : ℕ) (t' : List ℕ) (x : SwRoute × (ℕ → Bool) × ℕ) : Prop where
  ne : t' ≠ []
  sub : t'.Sublist t
  toured : Toured d C tsp t' x.1
  ok : exceeds L S_EPS x.1.cost = false
  routed : ∀ m, x.2.1 m = if m ∈ t ∧ m ∉ t' then false else routed m
  pos : (t' = t ∧ x.2.2 = lpos) ∨ (x.2.2 < nodes.length ∧ ∃ n, nodes[x.2.2]? = some n ∧ n ∈ t ∧ n ∉ t')

theorem demand_erase (d : ℕ → ℚ) {t : List ℕ} {n : ℕ} (h : n ∈ t) :
    demand d (t.erase n) = demand d t - d n := by
  have := demand_perm d (List.perm_cons_erase h)
  simp only [demand_cons] at this
  linarith

theorem ensureL_spec (h0 : 0 ∉ nodes) (htsp : TspRoutine D tsp)
    (hser : ∀ n ∈ nodes, Within L S_EPS (cost D (wrap [n]))) (m : ℕ) :
    ∀ (t : List ℕ) (cur : SwRoute) (routed : ℕ → Bool) (pos lpos : ℕ), t.length = m → t ≠ [] →
      t.Nodup → (∀ n ∈ t, n ∈ nodes) → Toured d C tsp t cur → pos < nodes.length →
      ∃ t' x, Removed d C L nodes tsp t routed lpos t' x ∧
        Ends (fun fuel => ensureL d C L fwd nodes tsp fuel cur routed pos lpos) x := by
  induction m with
  | zero =>
    intro t cur routed pos lpos hm hne
    exact absurd (List.eq_nil_of_length_eq_zero hm) hne
  | succ m ih =>
    intro t cur routed pos lpos hm hne hnd hsub ht hpos
    by_cases hok : exceeds L S_EPS cur.cost = false
    · refine ⟨t, (cur, routed, lpos), ⟨hne, List.Sublist.refl t, ht, hok, ?_, Or.inl ⟨rfl, rfl⟩⟩, 1, ?_⟩
      · intro m
        rw [if_neg (by tauto)]
      · intro fuel hf
        obtain ⟨fuel, rfl⟩ : ∃ f, fuel = f + 1 := ⟨fuel - 1, by omega⟩
        simp only [ensureL]
        rw [if_pos hok]
    · -- not a single customer
      have h0t : 0 ∉ t := fun h => h0 (hsub 0 h)
      have hm1 : 1 ≤ m := by
        by_contra hlt
        have hl1 : t.length = 1 := by omega
        obtain ⟨a, rfl⟩ := List.length_eq_one_iff.1 hl1
        obtain ⟨u, hu, e⟩ := htsp [a] (by simp) (by simpa using fun h : 0 = a => h0t (by simp [h]))
        rw [List.perm_singleton] at hu
        subst hu
        have e2 : cur.cost = cost D (wrap [a]) := by
          have := ht.tour
          rw [e, Prod.mk.injEq] at this
          exact this.2
        apply hok
        rw [e2, exceeds_iff]
        exact hser a (hsub a (by simp))
      -- the next node of the route backwards
      obtain ⟨a, ha⟩ := List.exists_mem_of_ne_nil t hne
      obtain ⟨q, hq, hqa⟩ := List.mem_iff_getElem.1 (hsub a ha)
      obtain ⟨k, hk1, _, hk⟩ := posAt_reach (!fwd) hpos hq
      have hn : 0 < nodes.length := by omega
      have ha' : nodes[posAt (!fwd) nodes.length pos k]? = some a := by
        rw [hk, List.getElem?_eq_getElem hq, hqa]
      clear hk
      have hlt : ∀ p, p < nodes.length → sweepStep (!fwd) p (nodes.length - 1) < nodes.length := by
        intro p hp
        rw [sweepStep_eq (!fwd) hp]
        exact Nat.mod_lt _ hn
      -- the removal of a node
      have rem : ∀ p, p < nodes.length → ∀ b ∈ t, ∀ hp : sweepStep (!fwd) p (nodes.length - 1) < nodes.length,
          nodes[sweepStep (!fwd) p (nodes.length - 1)] = b →
          ∃ t' x, Removed d C L nodes tsp t routed lpos t' x ∧
            Ends (fun fuel => ensureL d C L fwd nodes tsp fuel cur routed p lpos) x := by
        intro p hp b hb hp1 hpb
        have hb0 : b ≠ 0 := fun h => h0t (h ▸ hb)
        have hns : cur.node_set.erase b = 0 :: t.erase b := by
          rw [ht.set, List.erase_cons_tail (by simpa using fun h : 0 = b => hb0 h.symm)]
        have hl := List.length_erase_of_mem hb
        obtain ⟨t', x, hx, F, hF⟩ := ih (t.erase b)
          { route := (tsp (cur.node_set.erase b)).1
            cost := (tsp (cur.node_set.erase b)).2
            demand := if truthy C then cur.demand - d b else cur.demand
            node_set := cur.node_set.erase b }
          (setRouted routed b false) (sweepStep (!fwd) p (nodes.length - 1))
          (sweepStep (!fwd) p (nodes.length - 1)) (by omega)
          (by intro h; rw [h] at hl; simp at hl; omega) (hnd.erase b)
          (fun n hn => hsub n (List.mem_of_mem_erase hn))
          ⟨hns, by rw [hns], fun hC => by simp [hC, ht.dem hC, demand_erase d hb]⟩ hp1
        have hbt : b ∉ t.erase b := hnd.not_mem_erase
        refine ⟨t', x, ⟨hx.ne, hx.sub.trans List.erase_sublist, hx.toured, hx.ok, ?_, ?_⟩, F + 1, ?_⟩
        · intro m
          rw [hx.routed m]
          have hbt' : b ∉ t' := fun h => hbt (hx.sub.subset h)
          by_cases hmb : m = b
          · subst hmb
            rw [if_neg (by tauto), if_pos ⟨hb, hbt'⟩]
            simp [setRouted]
          · have : m ∈ t.erase b ↔ m ∈ t := List.mem_erase_of_ne hmb
            simp only [this, setRouted, if_neg hmb]
        · right
          rcases hx.pos with ⟨e1, e2⟩ | ⟨h1, n, h2, h3, h4⟩
          · rw [e2]
            exact ⟨hp1, b, by rw [List.getElem?_eq_getElem hp1, hpb], hb, by rw [e1]; exact hbt⟩
          · exact ⟨h1, n, h2, List.mem_of_mem_erase h3, h4⟩
        · intro fuel hf
          obtain ⟨fuel, rfl⟩ : ∃ f, fuel = f + 1 := ⟨fuel - 1, by omega⟩
          simp only [ensureL]
          rw [if_neg hok]
          simp only [idx_lt hp1, hpb]
          rw [if_pos (by rw [ht.set]; simp [hb])]
          exact hF fuel (by omega)
      -- from a position that reaches a node of the route in `k` steps
      have key : ∀ k pos, pos < nodes.length →
          nodes[posAt (!fwd) nodes.length pos (k + 1)]? = some a →
          ∃ t' x, Removed d C L nodes tsp t routed lpos t' x ∧
            Ends (fun fuel => ensureL d C L fwd nodes tsp fuel cur routed pos lpos) x := by
        intro k
        induction k with
        | zero =>
          intro pos hpos hk
          have hp1 := hlt pos hpos
          rw [← posAt_shift (!fwd) hpos 0, posAt_zero _ hp1, List.getElem?_eq_getElem hp1,
            Option.some.injEq] at hk
          exact rem pos hpos a ha hp1 hk
        | succ k ihk =>
          intro pos hpos hk
          have hp1 := hlt pos hpos
          by_cases hb : nodes[sweepStep (!fwd) pos (nodes.length - 1)] ∈ t
          · exact rem pos hpos _ hb hp1 rfl
          · rw [← posAt_shift (!fwd) hpos] at hk
            obtain ⟨t', x, hx, F, hF⟩ := ihk _ hp1 hk
            refine ⟨t', x, hx, F + 1, fun fuel hf => ?_⟩
            obtain ⟨fuel, rfl⟩ : ∃ f, fuel = f + 1 := ⟨fuel - 1, by omega⟩
            simp only [ensureL]
            rw [if_neg hok]
            simp only [idx_lt hp1]
            rw [if_neg (by
              rw [ht.set, List.mem_cons, not_or]
              exact ⟨fun h => h0 (h ▸ List.getElem_mem hp1), hb⟩)]
            exact hF fuel (by omega)
      cases k with
      | zero => omega
      | succ k => exact key k pos hpos ha'

/-! ## The main loop -/

/-- A recorded route: a tour of some of the nodes from the depot, with its true cost, within the limits. -/
def StoredOk (D : ℕ → ℕ → ℚ) (d : ℕ → ℚ) (C L : Option ℚ) (nodes : List ℕ) (rd : SwRoute) : Prop :=
  ∃ u t, rd.node_set = 0 :: t ∧ t ≠ [] ∧ t.Nodup ∧ (∀ n ∈ t, n ∈ nodes) ∧ u.Perm t ∧
    rd.route = wrap u ∧ rd.cost = cost D (wrap u) ∧ RouteOk D d C L u

/-- What holds at all times: `S` are the customers of the recorded routes, `t` those of the current
one. -/
structure SwBase (D : ℕ → ℕ → ℚ) (d : ℕ → ℚ) (C L : Option ℚ) (nodes : List ℕ) (alt : Bool)
    (S t : List ℕ) (s : SwState) : Prop where
  set : s.cur.node_set = 0 :: t
  stored : ∀ rd ∈ s.routes, StoredOk D d C L nodes rd
  served : S = if alt then [] else s.routes.flatMap (fun rd => rd.node_set.tail)
  nodup : (S ++ t).Nodup
  sub : ∀ n ∈ S ++ t, n ∈ nodes
  routed : ∀ n ∈ nodes, s.routed n = true ↔ n ∈ S ++ t
  cnt : s.routed_cnt = S.length
  dem : truthy C = true → s.cur.demand = demand d t
  cap : Within C C_EPS (demand d t)
  pos : s.pos < nodes.length
  node : ∀ n, s.node = some n → nodes[s.pos]? = some n ∧ n ∉ S ++ t

/-- The state at the head of the loop. -/
structure SwInv (D : ℕ → ℕ → ℚ) (d : ℕ → ℚ) (C L : Option ℚ) (nodes : List ℕ) (alt : Bool)
    (S t : List ℕ) (s : SwState) : Prop extends SwBase D d C L nodes alt S t s where
  some_node : ∀ n, s.node = some n → s.complete = false
  no_node : s.node = none → s.complete = true ∧ t ≠ []

theorem SwBase.mem_node {alt : Bool} {S t : List ℕ} {s : SwState} (h : SwBase D d C L nodes alt S t s)
    {n : ℕ} (hn : s.node = some n) : n ∈ nodes := List.mem_of_getElem? (h.node n hn).1

theorem within_mono {lim : Option ℚ} {e x y : ℚ} (h : Within lim e y) (hxy : x ≤ y) : Within lim e x :=
  fun c hc h0 => hxy.trans (h c hc h0)

theorem demand_sublist (hd : ∀ n, 0 ≤ d n) {t' t : List ℕ} (h : t'.Sublist t) :
    demand d t' ≤ demand d t := by
  induction h with
  | slnil => exact le_refl _
  | cons a _ ih => simp only [demand_cons]; have := hd a; linarith
  | cons_cons a _ ih => simp only [demand_cons]; linarith

theorem within_dem {t : List ℕ} {n : ℕ} {x : ℚ} (hx : truthy C = true → x = demand d t) :
    exceeds C C_EPS (x + d n) = false ↔ Within C C_EPS (demand d (t ++ [n])) := by
  rw [← exceeds_iff]
  by_cases hC : truthy C = true
  · rw [hx hC, demand_append]
    simp [demand]
  · rw [exceeds_truthy (by simpa using hC), exceeds_truthy (by simpa using hC)]

theorem swTest_spec {alt : Bool} {S t : List ℕ} {s : SwState} (h0 : 0 ∉ nodes) (htsp : TspRoutine D tsp)
    (hser : ∀ n ∈ nodes, RouteOk D d C L [n]) (h : SwInv D d C L nodes alt S t s) :
    ∃ s1, swTest d C L tsp s = .ok s1 ∧ SwBase D d C L nodes alt S t s1 ∧
      (s1.complete = true → t ≠ []) ∧ (s1.complete = false → ∃ n, s1.node = some n) ∧
      (∀ n, s1.node = some n → s1.complete = false → Within C C_EPS (demand d (t ++ [n]))) := by
  unfold swTest
  by_cases hc : s.complete = true
  · rw [if_pos hc]
    have hnone : s.node = none := by
      cases hn : s.node with
      | none => rfl
      | some n => rw [h.some_node n hn] at hc; exact absurd hc (by simp)
    exact ⟨s, rfl, h.toSwBase, fun _ => (h.no_node hnone).2, fun hf => by rw [hc] at hf; simp at hf,
      fun n hn => by rw [hnone] at hn; simp at hn⟩
  · rcases Option.eq_none_or_eq_some s.node with hn | ⟨n, hn⟩
    · exact absurd (h.no_node hn).1 hc
    · have hmem := h.mem_node hn
      rw [if_neg hc]
      by_cases h1 : exceeds C C_EPS (s.cur.demand + d n) = true
      · refine ⟨{ s with complete := true }, by simp only [hn, if_pos h1],
          ⟨h.set, h.stored, h.served, h.nodup, h.sub, h.routed, h.cnt, h.dem, h.cap,
          h.pos, h.node⟩, ?_, fun hf => by simp at hf, fun n _ hf => by simp at hf⟩
        rintro - rfl
        have := (within_dem (n := n) h.dem).2 (by simpa using (hser n hmem).1)
        rw [this] at h1
        simp at h1
      · have hw := (within_dem (n := n) h.dem).1 (by simpa using h1)
        by_cases h2 : exceeds L 0 s.ub = true
        · refine ⟨{ s with ub := (tsp (s.cur.node_set ++ [n])).2
                           complete := exceeds L S_EPS (tsp (s.cur.node_set ++ [n])).2 },
            by simp only [hn, if_neg h1, if_pos h2],
            ⟨h.set, h.stored, h.served, h.nodup, h.sub, h.routed, h.cnt, h.dem, h.cap,
            h.pos, h.node⟩, ?_, fun _ => ⟨n, hn⟩, ?_⟩
          · rintro hf rfl
            obtain ⟨u, hu, e⟩ := htsp [n] (by simp)
              (by simpa using fun e : 0 = n => h0 (by rw [e]; exact hmem))
            rw [List.perm_singleton] at hu
            subst hu
            simp only [h.set, List.cons_append, List.nil_append, e] at hf
            rw [(exceeds_iff _ _ _).2 (hser n hmem).2] at hf
            simp at hf
          · intro m hm _
            have hm' : s.node = some m := hm
            rw [hn, Option.some.injEq] at hm'
            rw [← hm']; exact hw
        · refine ⟨s, by simp only [hn, if_neg h1, if_neg h2], h.toSwBase, fun hf => absurd hf hc,
            fun _ => ⟨n, hn⟩, ?_⟩
          intro m hm _
          rw [hn, Option.some.injEq] at hm
          rw [← hm]; exact hw

theorem toured_ok {t : List ℕ} {cur : SwRoute} (h0 : 0 ∉ nodes) (htsp : TspRoutine D tsp) (hne : t ≠ [])
    (hnd : t.Nodup) (hsub : ∀ n ∈ t, n ∈ nodes) (ht : Toured d C tsp t cur)
    (hc : Within C C_EPS (demand d t)) (hL : exceeds L S_EPS cur.cost = false) :
    StoredOk D d C L nodes cur := by
  obtain ⟨u, hu, e⟩ := htsp t hne (List.nodup_cons.2 ⟨fun h => h0 (hsub 0 h), hnd⟩)
  have ht' := ht.tour
  rw [e, Prod.mk.injEq] at ht'
  refine ⟨u, t, ht.set, hne, hnd, hsub, hu, ht'.1, ht'.2, ?_, ?_⟩
  · rw [demand_perm d hu]; exact hc
  · rw [← ht'.2]; exact (exceeds_iff _ _ _).1 hL

theorem swRoute_spec {alt : Bool} {S t : List ℕ} {s : SwState} (h0 : 0 ∉ nodes)
    (hd : ∀ n, 0 ≤ d n)
    (htsp : TspRoutine D tsp) (hser : ∀ n ∈ nodes, RouteOk D d C L [n])
    (h : SwBase D d C L nodes alt S t s) (hne : t ≠ []) (hsome : s.complete = false → ∃ n, s.node = some n) :
    ∃ t' s2, Ends (fun fuel => swRoute d C L fwd nodes tsp fuel s) s2 ∧
      SwBase D d C L nodes alt S t' s2 ∧ t' ≠ [] ∧ StoredOk D d C L nodes s2.cur ∧
      (s.complete = true → s2.complete = true) ∧
      (s2.complete = false → t' = t ∧ s2.node = s.node) := by
  have hnd : t.Nodup := (List.nodup_append.1 h.nodup).2.1
  have hsub : ∀ n ∈ t, n ∈ nodes := fun n hn => h.sub n (List.mem_append_right _ hn)
  have ht0 : Toured d C tsp t { s.cur with route := (tsp s.cur.node_set).1, cost := (tsp s.cur.node_set).2 } :=
    ⟨h.set, by rw [h.set], h.dem⟩
  by_cases hL : truthy L = true
  · obtain ⟨t', ⟨cur, routed, lpos⟩, hx, F, hF⟩ := ensureL_spec (fwd := fwd) h0 htsp
      (fun n hn => (hser n hn).2) t.length t _ s.routed s.pos s.pos rfl hne hnd hsub ht0 h.pos
    have hcap : Within C C_EPS (demand d t') := within_mono h.cap (demand_sublist hd hx.sub)
    have hst := toured_ok h0 htsp hx.ne (hx.sub.nodup hnd) (fun n hn => hsub n (hx.sub.subset hn))
      hx.toured hcap hx.ok
    have hnodup : (S ++ t').Nodup := h.nodup.sublist (List.Sublist.append_left hx.sub S)
    have hsub' : ∀ n ∈ S ++ t', n ∈ nodes := by
      intro n hn
      refine h.sub n ?_
      rcases List.mem_append.1 hn with h1 | h1
      · exact List.mem_append_left _ h1
      · exact List.mem_append_right _ (hx.sub.subset h1)
    have hrouted : ∀ n ∈ nodes, routed n = true ↔ n ∈ S ++ t' := by
      intro n hn
      have e := hx.routed n
      simp only at e
      rw [e]
      by_cases hrem : n ∈ t ∧ n ∉ t'
      · rw [if_pos hrem]
        have : n ∉ S := fun hS => List.disjoint_of_nodup_append h.nodup hS hrem.1
        simp [this, hrem.2]
      · rw [if_neg hrem, h.routed n hn, List.mem_append, List.mem_append]
        constructor
        · rintro (h1 | h1)
          · exact Or.inl h1
          · exact Or.inr (by by_contra h2; exact hrem ⟨h1, h2⟩)
        · rintro (h1 | h1)
          · exact Or.inl h1
          · exact Or.inr (hx.sub.subset h1)
    by_cases hlp : lpos = s.pos
    · -- nothing removed unless the sweep is over
      have hsame : ∀ n, s.node = some n → t' = t := by
        intro n hn
        rcases hx.pos with ⟨e, _⟩ | ⟨_, r, hr1, hr2, _⟩
        · exact e
        · simp only [hlp] at hr1
          have := h.node n hn
          rw [hr1, Option.some.injEq] at this
          exact absurd (List.mem_append_right S hr2) (this.1 ▸ this.2)
      refine ⟨t', { s with cur := cur, ub := cur.cost, routed := routed }, ⟨F, fun fuel hf => ?_⟩,
        ⟨hx.toured.set, h.stored, h.served, hnodup, hsub', hrouted, h.cnt, hx.toured.dem, hcap, h.pos,
          fun n hn => ?_⟩, hx.ne, hst, fun hc => hc, fun hc => ?_⟩
      · have := hF fuel hf
        simp only at this
        simp only [swRoute, hL, if_true, this]
        rw [if_neg (by simp [hlp])]
      · rw [hsame n hn]
        exact h.node n hn
      · obtain ⟨n, hn⟩ := hsome hc
        exact ⟨hsame n hn, rfl⟩
    · have hlt : lpos < nodes.length ∧ ∃ n, nodes[lpos]? = some n ∧ n ∈ t ∧ n ∉ t' := by
        rcases hx.pos with ⟨_, e⟩ | e
        · exact absurd e hlp
        · exact e
      obtain ⟨hlt, r, hr1, hr2, hr3⟩ := hlt
      have hrS : r ∉ S := fun hS => List.disjoint_of_nodup_append h.nodup hS hr2
      rcases Option.eq_none_or_eq_some s.node with hn | ⟨n, hn⟩
      · refine ⟨t', { s with cur := cur, ub := cur.cost, routed := routed, pos := lpos, complete := true },
          ⟨F, fun fuel hf => ?_⟩,
          ⟨hx.toured.set, h.stored, h.served, hnodup, hsub', hrouted, h.cnt, hx.toured.dem, hcap, hlt,
            fun n hn' => ?_⟩, hx.ne, hst, fun _ => rfl, fun hc => by simp at hc⟩
        · have := hF fuel hf
          simp only at this
          simp only [swRoute, hL, if_true, this]
          rw [if_pos hlp]
          simp only [hn]
        · have : s.node = some n := hn'
          rw [hn] at this; simp at this
      · have hidx : idx nodes lpos = .ok r := by
          rw [idx_lt hlt]
          rw [List.getElem?_eq_getElem hlt, Option.some.injEq] at hr1
          rw [hr1]
        refine ⟨t', { s with cur := cur, ub := cur.cost, routed := routed, pos := lpos, node := some r, complete := true },
          ⟨F, fun fuel hf => ?_⟩,
          ⟨hx.toured.set, h.stored, h.served, hnodup, hsub', hrouted, h.cnt, hx.toured.dem, hcap, hlt,
            fun n hn' => ?_⟩, hx.ne, hst, fun _ => rfl, fun hc => by simp at hc⟩
        · have := hF fuel hf
          simp only at this
          simp only [swRoute, hL, if_true, this]
          rw [if_pos hlp]
          simp only [hn, hidx]
        · have : r = n := by simpa using hn'
          subst this
          exact ⟨hr1, by simp [hrS, hr3]⟩
  · have hx := toured_ok h0 htsp hne hnd hsub ht0 h.cap (exceeds_truthy (by simpa using hL) S_EPS _)
    refine ⟨t, { s with cur := { s.cur with route := (tsp s.cur.node_set).1, cost := (tsp s.cur.node_set).2 },
                        ub := (tsp s.cur.node_set).2 }, ⟨0, fun fuel _ => ?_⟩,
      ⟨h.set, h.stored, h.served, h.nodup, h.sub, h.routed, h.cnt, h.dem, h.cap, h.pos, h.node⟩, hne, hx,
      fun hc => hc, fun _ => ⟨rfl, rfl⟩⟩
    unfold swRoute
    simp only [hL, Bool.false_eq_true, if_false]

/-- What the sweep answers. -/
def SwDone (D : ℕ → ℕ → ℚ) (d : ℕ → ℚ) (C L : Option ℚ) (nodes : List ℕ) (alt : Bool)
    (routes : List SwRoute) : Prop :=
  (∀ rd ∈ routes, StoredOk D d C L nodes rd) ∧ routes ≠ [] ∧
  (alt = false → (routes.flatMap (fun rd => rd.node_set.tail)).Perm nodes)

/-- What is known before the node is added. -/
structure SwPre (D : ℕ → ℕ → ℚ) (d : ℕ → ℚ) (C L : Option ℚ) (nodes : List ℕ) (alt : Bool)
    (S t : List ℕ) (s : SwState) : Prop extends SwBase D d C L nodes alt S t s where
  open_ : s.complete = false
  fits : ∀ n, s.node = some n → Within C C_EPS (demand d (t ++ [n]))
  no_node : s.node = none → t = [] ∧ ∃ m ∈ nodes, m ∉ S

theorem perm_of_full {l : List ℕ} (hl : l.Nodup) (hsub : ∀ n ∈ l, n ∈ nodes)
    (hlen : nodes.length ≤ l.length) : l.Perm nodes :=
  (List.subperm_of_subset hl hsub).perm_of_length_le hlen

theorem exists_left {l : List ℕ} (hn : nodes.Nodup) (hlen : l.length < nodes.length) :
    ∃ m ∈ nodes, m ∉ l := by
  by_contra hcon
  have : nodes ⊆ l := fun m hm => by
    by_contra h
    exact hcon ⟨m, hm, h⟩
  have := (List.subperm_of_subset hn this).length_le
  omega

theorem swHead_spec {alt : Bool} {S t : List ℕ} {s : SwState} (h0 : 0 ∉ nodes) (hnn : nodes.Nodup)
    (hd : ∀ n, 0 ≤ d n) (htsp : TspRoutine D tsp) (hser : ∀ n ∈ nodes, RouteOk D d C L [n])
    (h : SwInv D d C L nodes alt S t s) :
    (∃ routes, Ends (fun fuel => swHead d C L fwd nodes tsp alt fuel s) (.done routes) ∧
      SwDone D d C L nodes alt routes) ∨
    (∃ S' t' s', Ends (fun fuel => swHead d C L fwd nodes tsp alt fuel s) (.next s') ∧
      SwPre D d C L nodes alt S' t' s' ∧
      ((S' = S ∧ t' = t ∧ ∃ n, s'.node = some n) ∨ (t' = [] ∧ S.length < S'.length))) := by
  obtain ⟨s1, e1, hb1, hc1, hs1, hf1⟩ := swTest_spec h0 htsp hser h
  by_cases hgo : (s1.complete || (alt && decide (1 < s1.cur.node_set.length))) = true
  · have hne : t ≠ [] := by
      rcases Bool.or_eq_true_iff.1 hgo with hc | hc
      · exact hc1 hc
      · rintro rfl
        simp [hb1.set] at hc
    obtain ⟨t', s2, ⟨F, hF⟩, hb2, hne2, hst2, hc2, hk2⟩ := swRoute_spec (fwd := fwd) h0 hd htsp hser hb1 hne hs1
    have step : ∀ fuel, F ≤ fuel → swHead d C L fwd nodes tsp alt fuel s =
        .ok (some (swStore alt nodes.length s2)) := by
      intro fuel hf
      have := hF fuel hf
      simp only at this
      simp only [swHead, e1]
      rw [if_pos hgo]
      simp only [this]
    have hl2 : 1 < s2.cur.node_set.length := by
      rw [hb2.set, List.length_cons]
      have := List.length_pos_iff.2 hne2
      omega
    have hall : ∀ rd ∈ s2.routes ++ [s2.cur], StoredOk D d C L nodes rd := by
      intro rd hrd
      rcases List.mem_append.1 hrd with h1 | h1
      · exact hb2.stored rd h1
      · rw [List.mem_singleton.1 h1]; exact hst2
    by_cases hcomp : s2.complete = true
    · have hstore : swStore alt nodes.length s2 =
          if nodes.length ≤ s2.routed_cnt + (s2.cur.node_set.length - 1) then .done (s2.routes ++ [s2.cur])
          else if alt then .done (s2.routes ++ [s2.cur])
          else .next { s2 with routes := s2.routes ++ [s2.cur]
                               routed_cnt := s2.routed_cnt + (s2.cur.node_set.length - 1)
                               cur := .new, ub := 0, complete := false } := by
        unfold swStore
        rw [if_pos hcomp]
        simp only [hl2, decide_true, if_true]
      have hcnt : s2.routed_cnt + (s2.cur.node_set.length - 1) = (S ++ t').length := by
        rw [hb2.cnt, hb2.set]; simp
      have hser' : alt = false → S ++ t' = (s2.routes ++ [s2.cur]).flatMap (fun rd => rd.node_set.tail) := by
        intro ha
        have := hb2.served
        rw [ha] at this
        simp only [Bool.false_eq_true, if_false] at this
        rw [List.flatMap_append, ← this]
        simp [hb2.set]
      by_cases hfull : nodes.length ≤ (S ++ t').length
      · left
        refine ⟨s2.routes ++ [s2.cur], ⟨F, fun fuel hf => ?_⟩, hall, by simp, fun ha => ?_⟩
        · show swHead d C L fwd nodes tsp alt fuel s = _
          rw [step fuel hf, hstore, hcnt, if_pos hfull]
        · rw [← hser' ha]
          exact perm_of_full hb2.nodup hb2.sub hfull
      · by_cases ha : alt = true
        · left
          refine ⟨s2.routes ++ [s2.cur], ⟨F, fun fuel hf => ?_⟩, hall, by simp, fun ha' => ?_⟩
          · show swHead d C L fwd nodes tsp alt fuel s = _
            rw [step fuel hf, hstore, hcnt, if_neg hfull, if_pos ha]
          · rw [ha] at ha'; simp at ha'
        · right
          have ha' : alt = false := by simpa using ha
          refine ⟨S ++ t', [], { s2 with routes := s2.routes ++ [s2.cur]
                                         routed_cnt := (S ++ t').length
                                         cur := .new, ub := 0, complete := false },
            ⟨F, fun fuel hf => ?_⟩, ⟨⟨?_, hall, ?_, ?_, ?_, ?_, ?_, ?_, ?_, ?_, ?_⟩, ?_, ?_, ?_⟩,
            Or.inr ⟨rfl, ?_⟩⟩
          · show swHead d C L fwd nodes tsp alt fuel s = _
            rw [step fuel hf, hstore, hcnt, if_neg hfull, if_neg ha]
          · rfl
          · rw [if_neg ha]; exact hser' ha'
          · simpa using hb2.nodup
          · simpa using hb2.sub
          · simpa using hb2.routed
          · rfl
          · intro _; rfl
          · exact within_mono hb2.cap (demand_sublist hd (List.nil_sublist _))
          · exact hb2.pos
          · intro n hn
            simpa using hb2.node n hn
          · rfl
          · intro n hn
            simpa using (hser n (hb2.mem_node hn)).1
          · intro hn
            exact ⟨rfl, exists_left hnn (by omega)⟩
          · have := List.length_pos_iff.2 hne2
            rw [List.length_append]; omega
    · have ha : alt = true := by
        rcases Bool.or_eq_true_iff.1 hgo with hc | hc
        · exact absurd (hc2 hc) hcomp
        · simp at hc; exact hc.1
      have hcf : s2.complete = false := by simpa using hcomp
      obtain ⟨e2, en⟩ := hk2 hcf
      subst e2
      have hc1' : s1.complete = false := by
        cases hc : s1.complete with
        | false => rfl
        | true => exact absurd (hc2 hc) hcomp
      right
      refine ⟨S, t', { s2 with routes := s2.routes ++ [s2.cur] }, ⟨F, fun fuel hf => ?_⟩,
        ⟨⟨hb2.set, hall, ?_, hb2.nodup, hb2.sub, hb2.routed, hb2.cnt, hb2.dem, hb2.cap, hb2.pos, hb2.node⟩,
          hcf, ?_, ?_⟩, Or.inl ⟨rfl, rfl, ?_⟩⟩
      · show swHead d C L fwd nodes tsp alt fuel s = _
        rw [step fuel hf, swStore, if_neg hcomp]
      · have := hb2.served
        rw [ha] at this ⊢
        exact this
      · intro n hn
        exact hf1 n (by rw [← en]; exact hn) hc1'
      · intro hn
        obtain ⟨n, hn'⟩ := hs1 hc1'
        rw [← en] at hn'
        have hn : s2.node = none := hn
        rw [hn] at hn'; simp at hn'
      · obtain ⟨n, hn⟩ := hs1 hc1'
        exact ⟨n, by rw [← hn, ← en]⟩
  · right
    have hc1' : s1.complete = false := by
      rw [Bool.not_eq_true, Bool.or_eq_false_iff] at hgo; exact hgo.1
    refine ⟨S, t, s1, ⟨0, fun fuel _ => ?_⟩, ⟨hb1, hc1', fun n hn => hf1 n hn hc1', ?_⟩,
      Or.inl ⟨rfl, rfl, hs1 hc1'⟩⟩
    · simp only [swHead, e1]
      rw [if_neg hgo]
    · intro hn
      obtain ⟨n, hn'⟩ := hs1 hc1'
      rw [hn] at hn'; simp at hn'

theorem swPrev_ok (r : List ℕ) : ∃ p, swPrev r = .ok p := by
  unfold swPrev
  by_cases h : 2 < r.length
  · rw [if_pos h]
    have h1 : idxNeg r 1 = .ok r[r.length - 1] := by
      unfold idxNeg
      rw [if_neg (by omega), idx_lt (by omega)]
    have h2 : idxNeg r 2 = .ok r[r.length - 2] := by
      unfold idxNeg
      rw [if_neg (by omega), idx_lt (by omega)]
    rw [h1, h2]
    by_cases h3 : r[r.length - 1] ≠ 0
    · exact ⟨r[r.length - 1], by
        show (if r[r.length - 1] ≠ 0 then _ else _ : Py ℕ) = _
        rw [if_pos h3]; rfl⟩
    · exact ⟨r[r.length - 2], by
        show (if r[r.length - 1] ≠ 0 then _ else _ : Py ℕ) = _
        rw [if_neg h3]⟩
  · rw [if_neg h]
    exact ⟨0, rfl⟩

theorem swAdd_spec {alt : Bool} {S t : List ℕ} {s : SwState} (h0 : 0 ∉ nodes)
    (h : SwPre D d C L nodes alt S t s) :
    ∃ t' s', swAdd D d C L s = .ok s' ∧ SwBase D d C L nodes alt S t' { s' with node := none } ∧
      s'.complete = false ∧
      ((∃ n, s.node = some n ∧ t' = t ++ [n]) ∨ (s.node = none ∧ t' = [] ∧ ∃ m ∈ nodes, m ∉ S)) := by
  rcases Option.eq_none_or_eq_some s.node with hn | ⟨n, hn⟩
  · refine ⟨t, s, by simp only [swAdd, hn], ⟨h.set, h.stored, h.served, h.nodup, h.sub, h.routed, h.cnt, h.dem,
      h.cap, h.pos, fun n hn' => by simp at hn'⟩, h.open_, Or.inr ?_⟩
    obtain ⟨h1, h2⟩ := h.no_node hn
    exact ⟨hn, h1, h2⟩
  · obtain ⟨hpos, hnot⟩ := h.node n hn
    have hmem := h.mem_node hn
    have hr : s.routed n ≠ true := fun hr => hnot ((h.routed n hmem).1 hr)
    obtain ⟨p, hp⟩ := swPrev_ok s.cur.route
    have hn0 : n ≠ 0 := fun e => h0 (e ▸ hmem)
    have hset : ODS.dictSet s.cur.node_set n = 0 :: (t ++ [n]) := by
      rw [h.set, ODS.dictSet, if_neg]
      · rfl
      · rw [List.mem_cons, not_or]
        exact ⟨hn0, fun ht => hnot (List.mem_append_right _ ht)⟩
    refine ⟨t ++ [n], { s with
          cur := { s.cur with
            node_set := ODS.dictSet s.cur.node_set n
            demand := if truthy C then s.cur.demand + d n else s.cur.demand }
          routed := setRouted s.routed n true
          ub := if truthy L then s.ub + (-D p 0 + D p n + D n 0) else s.ub }, ?_,
      ⟨hset, h.stored, h.served, ?_, ?_, ?_, h.cnt, ?_, h.fits n hn, h.pos, fun n hn' => by simp at hn'⟩,
      h.open_, Or.inl ⟨n, hn, rfl⟩⟩
    · simp only [swAdd, hn]
      rw [if_neg hr]
      simp only [hp]
    · rw [← List.append_assoc]
      exact (List.perm_append_comm.nodup_iff).1 (by simpa using ⟨by simpa using hnot, h.nodup⟩)
    · intro m hm
      rw [← List.append_assoc] at hm
      rcases List.mem_append.1 hm with h1 | h1
      · exact h.sub m h1
      · rw [List.mem_singleton.1 h1]; exact hmem
    · intro m hm
      rw [← List.append_assoc, List.mem_append, List.mem_singleton]
      by_cases e : m = n
      · subst e
        simp [setRouted]
      · simp only [setRouted, if_neg e]
        rw [h.routed m hm]
        simp [e]
    · intro hC
      rw [demand_append]
      simp [hC, h.dem hC, demand]

theorem swMove_spec {alt : Bool} {S t : List ℕ} {s : SwState}
    (h : SwBase D d C L nodes alt S t { s with node := none }) (hc : s.complete = false)
    (ht : t ≠ [] ∨ ∃ m ∈ nodes, m ∉ S ++ t) :
    ∃ s', Ends (fun fuel => swMove fwd nodes fuel s) s' ∧ SwInv D d C L nodes alt S t s' := by
  obtain ⟨⟨pos, o⟩, hx, F, hF⟩ := swScan_spec fwd nodes s.routed h.pos
  rcases hx with ⟨n, e1, e2, e3⟩ | ⟨e, hall⟩
  · simp only at e1 e2
    subst e1
    refine ⟨{ s with pos := pos, node := some n }, ⟨F, fun fuel hf => ?_⟩,
      ⟨⟨h.set, h.stored, h.served, h.nodup, h.sub, h.routed, h.cnt, h.dem, h.cap, ?_, ?_⟩, fun _ _ => hc,
        fun hn => by simp at hn⟩⟩
    · have := hF fuel hf
      simp only at this
      simp only [swMove, this]
    · exact (List.getElem?_eq_some_iff.1 e2).1
    · intro m hm
      have : n = m := by simpa using hm
      subst this
      refine ⟨e2, fun hin => ?_⟩
      have := (h.routed n (List.mem_of_getElem? e2)).2 hin
      simp only at this
      rw [this] at e3; simp at e3
  · rw [Prod.mk.injEq] at e
    obtain ⟨rfl, rfl⟩ := e
    refine ⟨{ s with pos := s.pos, node := none, complete := true }, ⟨F, fun fuel hf => ?_⟩,
      ⟨⟨h.set, h.stored, h.served, h.nodup, h.sub, h.routed, h.cnt, h.dem, h.cap, h.pos,
        fun m hm => by simp at hm⟩, fun n hn => by simp at hn, fun _ => ⟨rfl, ?_⟩⟩⟩
    · have := hF fuel hf
      simp only at this
      simp only [swMove, this]
    · rcases ht with ht | ⟨m, hm, hm'⟩
      · exact ht
      · exact absurd ((h.routed m hm).1 (hall m hm)) hm'

theorem sweepLoop_spec {alt : Bool} (h0 : 0 ∉ nodes) (hnn : nodes.Nodup)
    (hd : ∀ n, 0 ≤ d n) (htsp : TspRoutine D tsp) (hser : ∀ n ∈ nodes, RouteOk D d C L [n]) (m : ℕ) :
    ∀ (S t : List ℕ) (s : SwState),
      (nodes.length - S.length) * (nodes.length + 2) + (nodes.length + 1 - t.length) ≤ m →
      SwInv D d C L nodes alt S t s →
      ∃ routes, SwDone D d C L nodes alt routes ∧ ∃ F, ∀ inner fuel, F ≤ inner → F ≤ fuel →
        sweepLoop D d C L fwd nodes tsp alt inner fuel s = .ok (some routes) := by
  induction m with
  | zero =>
    intro S t s hm h
    have := (List.subperm_of_subset h.nodup h.sub).length_le
    rw [List.length_append] at this
    omega
  | succ m ih =>
    intro S t s hm h
    rcases swHead_spec (fwd := fwd) h0 hnn hd htsp hser h with ⟨routes, ⟨F, hF⟩, hdone⟩ | ⟨S', t', s', ⟨F, hF⟩, hpre, hcase⟩
    · refine ⟨routes, hdone, F + 1, fun inner fuel hi hf => ?_⟩
      obtain ⟨fuel, rfl⟩ : ∃ f, fuel = f + 1 := ⟨fuel - 1, by omega⟩
      have := hF inner (by omega)
      simp only at this
      simp only [sweepLoop, this]
    · obtain ⟨t'', s'', ea, hb, hc, hn⟩ := swAdd_spec h0 hpre
      obtain ⟨s3, ⟨F3, hF3⟩, hinv⟩ := swMove_spec (fwd := fwd) hb hc (by
        rcases hn with ⟨n, _, e⟩ | ⟨_, e, k, hk, hk'⟩
        · left; rw [e]; simp
        · right; exact ⟨k, hk, by simpa [e] using hk'⟩)
      have hlen := (List.subperm_of_subset hinv.nodup hinv.sub).length_le
      rw [List.length_append] at hlen
      have hlen0 := (List.subperm_of_subset h.nodup h.sub).length_le
      rw [List.length_append] at hlen0
      have hmeas : (nodes.length - S'.length) * (nodes.length + 2) + (nodes.length + 1 - t''.length) ≤ m := by
        rcases hcase with ⟨rfl, rfl, n, hsn⟩ | ⟨rfl, hlt⟩
        · rcases hn with ⟨n', _, rfl⟩ | ⟨hnone, _⟩
          · rw [List.length_append] at hlen ⊢
            simp only [List.length_cons, List.length_nil] at hlen ⊢
            omega
          · rw [hsn] at hnone; simp at hnone
        · have hmul : (nodes.length - S'.length + 1) * (nodes.length + 2) ≤
              (nodes.length - S.length) * (nodes.length + 2) := Nat.mul_le_mul_right _ (by omega)
          rw [Nat.add_mul, Nat.one_mul] at hmul
          omega
      obtain ⟨routes, hdone, F4, hF4⟩ := ih S' t'' s3 hmeas hinv
      refine ⟨routes, hdone, F + F3 + F4 + 1, fun inner fuel hi hf => ?_⟩
      obtain ⟨fuel, rfl⟩ : ∃ f, fuel = f + 1 := ⟨fuel - 1, by omega⟩
      have e1 := hF inner (by omega)
      have e3 := hF3 inner (by omega)
      simp only at e1 e3
      simp only [sweepLoop, e1, ea, e3]
      exact hF4 inner fuel (by omega) (by omega)

theorem do_one_sweep_spec {alt : Bool} {start : ℕ} (h0 : 0 ∉ nodes) (hnn : nodes.Nodup)
    (hd : ∀ n, 0 ≤ d n) (htsp : TspRoutine D tsp) (hser : ∀ n ∈ nodes, RouteOk D d C L [n])
    (hs : start < nodes.length) :
    ∃ routes, SwDone D d C L nodes alt routes ∧
      Ends (fun fuel => do_one_sweep fuel D d C L tsp nodes start fwd alt) routes := by
  have hne := List.getElem_mem hs
  have hinv : SwInv D d C L nodes alt [] []
      { routes := [], routed := fun n => n == 0, routed_cnt := 0, cur := .new, ub := 0,
        complete := false, pos := start, node := some nodes[start] } := by
    refine ⟨⟨rfl, by simp, by simp, by simp, by simp, ?_, rfl, fun _ => rfl,
      within_mono (hser _ hne).1 (demand_sublist hd (List.nil_sublist _)), hs, ?_⟩, fun _ _ => rfl,
      fun hn => by simp at hn⟩
    · intro n hn
      have : n ≠ 0 := fun e => h0 (e ▸ hn)
      simp [this]
    · intro n hn
      have : nodes[start] = n := by simpa using hn
      subst this
      exact ⟨List.getElem?_eq_getElem hs, by simp⟩
  obtain ⟨routes, hdone, F, hF⟩ := sweepLoop_spec (fwd := fwd) (alt := alt) h0 hnn hd htsp hser _ [] [] _
    (le_refl _) hinv
  refine ⟨routes, hdone, F, fun fuel hf => ?_⟩
  simp only [do_one_sweep, idx_lt hs]
  exact hF fuel fuel hf hf

end

end Verif
