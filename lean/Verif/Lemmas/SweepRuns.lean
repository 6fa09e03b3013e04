import Verif.Lemmas.Sweep
import Verif.Spec.SweepRuns

/-! # Lemmas on the sweep with the capacity as its only limit -/

namespace Verif

open Spec

/-- The pieces of what is left, where `g` is the piece so far. -/
def runsFrom (d : ℕ → ℚ) (C : Option ℚ) : List ℕ → List ℕ → List (List ℕ)
  | g, [] => [g]
  | g, x :: t => if exceeds C C_EPS (demand d g + d x) then g :: runsFrom d C [x] t else runsFrom d C (g ++ [x]) t

/-- The route with the given customers as it is stored. -/
def storedRun (d : ℕ → ℚ) (C : Option ℚ) (tsp : Router) (g : List ℕ) : SwRoute :=
  { route := (tsp (0 :: g)).1, cost := (tsp (0 :: g)).2, demand := if truthy C then demand d g else 0, node_set := 0 :: g }

section

variable {D : ℕ → ℕ → ℚ} {d : ℕ → ℚ} {C L : Option ℚ} {fwd : Bool} {nodes : List ℕ} {tsp : Router} {start : ℕ}

/-- The `k`-th customer on the way around. -/
def swNth (fwd : Bool) (nodes : List ℕ) (start k : ℕ) : ℕ := (nodes[posAt fwd nodes.length start k]?).getD 0

theorem sw_exceeds_falsy {x eps : ℚ} {L : Option ℚ} (h : truthy L = false) : exceeds L eps x = false := by
  cases L with
  | none => rfl
  | some l =>
    simp only [truthy] at h
    simp [exceeds, h]

/-- What is the case after `k` customers, of which those in `g` are on the present route. -/
structure RunState (d : ℕ → ℚ) (C : Option ℚ) (fwd : Bool) (nodes : List ℕ) (tsp : Router) (start k : ℕ) (g : List ℕ) (gs : List (List ℕ))
    (s : SwState) : Prop where
  routes : s.routes = gs.map (storedRun d C tsp)
  cnt : s.routed_cnt + g.length = k
  sub : ∀ x ∈ g, ∃ i, i < k ∧ x = swNth fwd nodes start i
  routed : ∀ m, s.routed m = true ↔ m = 0 ∨ ∃ i, i < k ∧ m = swNth fwd nodes start i
  cur : s.cur = { route := [0], cost := 0, demand := if truthy C then demand d g else 0, node_set := 0 :: g }
  left : k < nodes.length → s.complete = false ∧ s.pos = posAt fwd nodes.length start k ∧ s.node = some (swNth fwd nodes start k)
  last : k = nodes.length → s.complete = true ∧ s.node = none

theorem swNth_mem (hs : start < nodes.length) (k : ℕ) : swNth fwd nodes start k ∈ nodes := by
  have h := posAt_lt fwd (n := nodes.length) (by omega) start k
  simp [swNth, List.getElem?_eq_getElem h]

theorem posAt_add (fwd : Bool) {n : ℕ} (hn : 0 < n) (pos i k : ℕ) : posAt fwd n (posAt fwd n pos i) k = posAt fwd n pos (i + k) := by
  unfold posAt
  rw [Nat.mod_add_mod, Nat.mul_add, Nat.add_assoc]

theorem swNth_inj (hn : nodes.Nodup) (hs : start < nodes.length) {i j : ℕ} (hi : i < nodes.length) (hj : j < nodes.length)
    (h : swNth fwd nodes start i = swNth fwd nodes start j) : i = j := by
  have key : ∀ i j, i < j → j < nodes.length → swNth fwd nodes start i ≠ swNth fwd nodes start j := by
    intro i j hij hj h
    have h0 : 0 < nodes.length := by omega
    have h1 := posAt_lt fwd h0 start i
    have h2 := posAt_lt fwd h0 start j
    simp only [swNth, List.getElem?_eq_getElem h1, List.getElem?_eq_getElem h2, Option.getD_some] at h
    have h3 := (List.Nodup.getElem_inj_iff hn).1 h
    have h4 : posAt fwd nodes.length (posAt fwd nodes.length start i) (j - i) = posAt fwd nodes.length start i := by
      rw [posAt_add fwd h0, h3]
      congr 1
      omega
    exact posAt_ne fwd h1 (by omega) (by omega) h4
  rcases Nat.lt_trichotomy i j with h1 | h1 | h1
  · exact absurd h (key i j h1 hj)
  · exact h1
  · exact absurd h.symm (key j i h1 hi)

/-- The step to the next customer. -/
theorem swMove_run (h0 : 0 ∉ nodes) (hn : nodes.Nodup) (hs : start < nodes.length) {k : ℕ} (hk : k < nodes.length) {s : SwState}
    (hr : ∀ m, s.routed m = true ↔ m = 0 ∨ ∃ i, i < k + 1 ∧ m = swNth fwd nodes start i) (hp : s.pos = posAt fwd nodes.length start k)
    (hc : s.complete = false) : ∃ s', Ends (fun fuel => swMove fwd nodes fuel s) s' ∧ s'.routes = s.routes ∧ s'.routed = s.routed ∧
      s'.routed_cnt = s.routed_cnt ∧ s'.cur = s.cur ∧
      (k + 1 < nodes.length → s'.complete = false ∧ s'.pos = posAt fwd nodes.length start (k + 1) ∧ s'.node = some (swNth fwd nodes start (k + 1))) ∧
      (k + 1 = nodes.length → s'.complete = true ∧ s'.node = none) := by
  have h1 : 0 < nodes.length := by omega
  by_cases hl : k + 1 < nodes.length
  · have hp1 := posAt_lt fwd h1 start (k + 1)
    have e : nodes[posAt fwd nodes.length start (k + 1)] = swNth fwd nodes start (k + 1) := by
      simp [swNth, List.getElem?_eq_getElem hp1]
    have hnr : s.routed (swNth fwd nodes start (k + 1)) = false := by
      by_contra h
      rw [Bool.not_eq_false] at h
      rcases (hr _).1 h with h | ⟨i, hi, h⟩
      · exact h0 (h ▸ swNth_mem hs (k + 1))
      · have := swNth_inj hn hs hl (by omega) h
        omega
    refine ⟨{ s with pos := posAt fwd nodes.length start (k + 1), node := some (swNth fwd nodes start (k + 1)) }, ⟨1, fun fuel hf => ?_⟩, rfl, rfl, rfl,
      rfl, fun _ => ⟨hc, rfl, rfl⟩, fun h => by omega⟩
    obtain ⟨fuel, rfl⟩ : ∃ f, fuel = f + 1 := ⟨fuel - 1, by omega⟩
    dsimp only
    unfold swMove
    rw [swScan, hp, sweepStep_posAt fwd h1, idx_lt hp1]
    dsimp only
    rw [e, hnr]
    rfl
  · have hpl : s.pos < nodes.length := by rw [hp]; exact posAt_lt fwd h1 start k
    have hall : ∀ n ∈ nodes, s.routed n = true := by
      intro n hm
      obtain ⟨q, hq, rfl⟩ := List.mem_iff_getElem.1 hm
      obtain ⟨i, hi1, hi2, hi3⟩ := posAt_reach fwd hs hq
      rw [hr]
      right
      by_cases hi : i = nodes.length
      · refine ⟨0, by omega, ?_⟩
        rw [hi, posAt_full fwd hs] at hi3
        subst hi3
        simp [swNth, posAt_zero fwd hs, List.getElem?_eq_getElem hs]
      · refine ⟨i, by omega, ?_⟩
        simp [swNth, hi3, List.getElem?_eq_getElem hq]
    obtain ⟨x, hx, F, hF⟩ := swScan_spec fwd nodes s.routed hpl
    rcases hx with ⟨n, hx1, hx2, hx3⟩ | ⟨rfl, -⟩
    · rw [hall n (List.mem_of_getElem? hx2)] at hx3
      exact absurd hx3 (by simp)
    · refine ⟨{ s with pos := s.pos, node := none, complete := true }, ⟨F, fun fuel hf => ?_⟩, rfl, rfl, rfl, rfl, fun h => absurd h hl,
        fun _ => ⟨rfl, rfl⟩⟩
      have := hF fuel hf
      dsimp only at this
      dsimp only [swMove]
      rw [this]

/-- The last route is stored and the sweep ends. -/
theorem loop_last (hL : truthy L = false) {k : ℕ} {g : List ℕ} {gs : List (List ℕ)} {s : SwState} (hg : g ≠ [])
    (h : RunState d C fwd nodes tsp start k g gs s) (hk : k = nodes.length) (inner fuel : ℕ) :
    sweepLoop D d C L fwd nodes tsp false inner (fuel + 1) s = .ok (some ((gs ++ [g]).map (storedRun d C tsp))) := by
  obtain ⟨hc, -⟩ := h.last hk
  have e1 : swTest d C L tsp s = .ok s := by
    unfold swTest
    rw [hc]
    rfl
  have e2 : swRoute d C L fwd nodes tsp inner s = .ok (some { s with cur := storedRun d C tsp g, ub := (tsp (0 :: g)).2 }) := by
    unfold swRoute
    rw [hL, h.cur]
    rfl
  have hlen : 1 < (0 :: g).length := by
    have := List.length_pos_iff.2 hg
    simp only [List.length_cons]
    omega
  have e3 : swStore false nodes.length { s with cur := storedRun d C tsp g, ub := (tsp (0 :: g)).2 } =
      .done ((gs ++ [g]).map (storedRun d C tsp)) := by
    unfold swStore
    dsimp only
    rw [hc, if_pos rfl]
    have e4 : (storedRun d C tsp g).node_set = 0 :: g := rfl
    rw [e4, decide_eq_true hlen]
    simp only [if_true]
    have e5 : nodes.length ≤ s.routed_cnt + ((0 :: g).length - 1) := by
      have := h.cnt
      simp only [List.length_cons]
      omega
    rw [if_pos e5, h.routes]
    simp
  rw [sweepLoop]
  unfold swHead
  rw [e1]
  dsimp only
  rw [hc]
  simp only [Bool.true_or, if_true]
  rw [e2]
  dsimp only
  rw [e3]

/-- The next customer is put on the present route or a new one. -/
theorem loop_step (h0 : 0 ∉ nodes) (hn : nodes.Nodup) (hs : start < nodes.length) (hL : truthy L = false)
    (hser : ∀ n ∈ nodes, Within C C_EPS (d n)) {k : ℕ} {g : List ℕ} {gs : List (List ℕ)}
    {s : SwState} (h : RunState d C fwd nodes tsp start k g gs s) (hk : k < nodes.length) :
    ∃ s' F, (∀ inner, F ≤ inner → ∀ fuel, sweepLoop D d C L fwd nodes tsp false inner (fuel + 1) s =
        sweepLoop D d C L fwd nodes tsp false inner fuel s') ∧
      (if exceeds C C_EPS (demand d g + d (swNth fwd nodes start k)) then
        RunState d C fwd nodes tsp start (k + 1) [swNth fwd nodes start k] (gs ++ [g]) s'
      else RunState d C fwd nodes tsp start (k + 1) (g ++ [swNth fwd nodes start k]) gs s') := by
  obtain ⟨hc, hp, hnode⟩ := h.left hk
  set n := swNth fwd nodes start k with hndef
  have hnm : n ∈ nodes := swNth_mem hs k
  have hn0 : n ≠ 0 := fun e => h0 (e ▸ hnm)
  have hnr : s.routed n = false := by
    by_contra hh
    rw [Bool.not_eq_false] at hh
    rcases (h.routed n).1 hh with e | ⟨i, hi, e⟩
    · exact hn0 e
    · have := swNth_inj hn hs hk (by omega) e
      omega
  have hdem : exceeds C C_EPS (s.cur.demand + d n) = exceeds C C_EPS (demand d g + d n) := by
    rw [h.cur]
    dsimp only
    cases hC : truthy C
    · rw [sw_exceeds_falsy hC, sw_exceeds_falsy hC]
    · rfl
  -- the addition of the customer to a route with the customers `g'`
  have hadd : ∀ (s1 : SwState) (g' : List ℕ), n ∉ g' → s1.routed = s.routed → s1.pos = s.pos → s1.node = some n → s1.complete = false →
      s1.cur = { route := [0], cost := 0, demand := if truthy C then demand d g' else 0, node_set := 0 :: g' } →
      ∃ s2 s3, swAdd D d C L s1 = .ok s2 ∧ Ends (fun fuel => swMove fwd nodes fuel s2) s3 ∧ s3.routes = s1.routes ∧ s3.routed_cnt = s1.routed_cnt ∧
        (∀ m, s3.routed m = true ↔ m = 0 ∨ ∃ i, i < k + 1 ∧ m = swNth fwd nodes start i) ∧
        s3.cur = { route := [0], cost := 0, demand := if truthy C then demand d (g' ++ [n]) else 0, node_set := 0 :: (g' ++ [n]) } ∧
        (k + 1 < nodes.length → s3.complete = false ∧ s3.pos = posAt fwd nodes.length start (k + 1) ∧
          s3.node = some (swNth fwd nodes start (k + 1))) ∧ (k + 1 = nodes.length → s3.complete = true ∧ s3.node = none) := by
    intro s1 g' hng hr1 hp1 hn1 hc1 hcur1
    have hprev : swPrev s1.cur.route = .ok 0 := by rw [hcur1]; rfl
    have hadd : swAdd D d C L s1 = .ok { s1 with
          cur := { s1.cur with
            node_set := ODS.dictSet s1.cur.node_set n
            demand := if truthy C then s1.cur.demand + d n else s1.cur.demand }
          routed := setRouted s1.routed n true
          ub := if truthy L then s1.ub + (-D 0 0 + D 0 n + D n 0) else s1.ub } := by
      unfold swAdd
      rw [hn1]
      dsimp only
      rw [hr1, hnr, hprev]
      rfl
    have hrouted : ∀ m, setRouted s1.routed n true m = true ↔ m = 0 ∨ ∃ i, i < k + 1 ∧ m = swNth fwd nodes start i := by
      intro m
      unfold setRouted
      by_cases hm : m = n
      · rw [if_pos hm]
        exact ⟨fun _ => .inr ⟨k, by omega, hm⟩, fun _ => rfl⟩
      · rw [if_neg hm, hr1, h.routed]
        constructor
        · rintro (e | ⟨i, hi, e⟩)
          · exact .inl e
          · exact .inr ⟨i, by omega, e⟩
        · rintro (e | ⟨i, hi, e⟩)
          · exact .inl e
          · refine .inr ⟨i, ?_, e⟩
            by_contra hge
            have : i = k := by omega
            subst this
            exact hm e
    obtain ⟨s3, m1, m2, m3, m4, m5, m6, m7⟩ := swMove_run (fwd := fwd) h0 hn hs hk (s := { s1 with
          cur := { s1.cur with
            node_set := ODS.dictSet s1.cur.node_set n
            demand := if truthy C then s1.cur.demand + d n else s1.cur.demand }
          routed := setRouted s1.routed n true
          ub := if truthy L then s1.ub + (-D 0 0 + D 0 n + D n 0) else s1.ub }) hrouted (by dsimp only; rw [hp1, hp]) hc1
    refine ⟨_, s3, hadd, m1, m2, m4, fun m => by rw [m3]; exact hrouted m, ?_, m6, m7⟩
    rw [m5]
    dsimp only
    rw [hcur1]
    dsimp only
    have hset : ODS.dictSet (0 :: g') n = 0 :: (g' ++ [n]) := by
      unfold ODS.dictSet
      rw [if_neg (by simp [hn0, hng])]
      rfl
    rw [hset]
    congr 1
    cases truthy C
    · rfl
    · simp [demand_append, demand_cons, demand_nil]
  by_cases hex : exceeds C C_EPS (demand d g + d n) = true
  · have hg : g ≠ [] := by
      rintro rfl
      have := (exceeds_iff C C_EPS (d n)).2 (hser n hnm)
      simp only [demand_nil, zero_add] at hex
      rw [this] at hex
      simp at hex
    have hlen : 1 < (0 :: g).length := by
      have := List.length_pos_iff.2 hg
      simp only [List.length_cons]
      omega
    have e1 : swTest d C L tsp s = .ok { s with complete := true } := by
      unfold swTest
      rw [hc, hnode]
      dsimp only
      rw [if_neg (by simp), hdem, if_pos hex]
    have e2 : swRoute d C L fwd nodes tsp 0 { s with complete := true } =
        .ok (some { s with complete := true, cur := storedRun d C tsp g, ub := (tsp (0 :: g)).2 }) := by
      unfold swRoute
      rw [hL, h.cur]
      rfl
    have e3 : swStore false nodes.length { s with complete := true, cur := storedRun d C tsp g, ub := (tsp (0 :: g)).2 } =
        .next { s with complete := false, cur := .new, ub := 0, routes := (gs ++ [g]).map (storedRun d C tsp), routed_cnt := k } := by
      unfold swStore
      dsimp only
      rw [if_pos rfl]
      have e4 : (storedRun d C tsp g).node_set = 0 :: g := rfl
      rw [e4, decide_eq_true hlen]
      simp only [if_true]
      have e5 : s.routed_cnt + ((0 :: g).length - 1) = k := by
        have := h.cnt
        simp only [List.length_cons]
        omega
      rw [e5, if_neg (by omega), if_neg (by simp), h.routes]
      simp
    obtain ⟨s2, s3, a1, ⟨F, a2⟩, a3, a4, a5, a6, a7, a8⟩ := hadd
      { s with complete := false, cur := .new, ub := 0, routes := (gs ++ [g]).map (storedRun d C tsp), routed_cnt := k } [] (by simp) rfl rfl hnode rfl (by
        unfold SwRoute.new
        simp [demand_nil])
    refine ⟨s3, F, fun inner hi fuel => ?_, ?_⟩
    · have e2' : swRoute d C L fwd nodes tsp inner { s with complete := true } = 
          .ok (some { s with complete := true, cur := storedRun d C tsp g, ub := (tsp (0 :: g)).2 }) := by
        rw [← e2]
        unfold swRoute
        rw [hL]
        rfl
      rw [sweepLoop]
      unfold swHead
      rw [e1]
      dsimp only
      simp only [Bool.true_or, if_true]
      rw [e2']
      dsimp only
      rw [e3]
      dsimp only
      rw [a1]
      dsimp only
      have := a2 inner hi
      dsimp only at this
      rw [this]
    · rw [if_pos hex]
      exact ⟨a3, by rw [a4]; rfl, fun x hx => ⟨k, by omega, by simpa using hx⟩, a5, a6, a7, a8⟩
  · have hng : n ∉ g → ∃ s' F, (∀ inner, F ≤ inner → ∀ fuel, sweepLoop D d C L fwd nodes tsp false inner (fuel + 1) s =
        sweepLoop D d C L fwd nodes tsp false inner fuel s') ∧ RunState d C fwd nodes tsp start (k + 1) (g ++ [n]) gs s' := by
      intro hng
      have e1 : swTest d C L tsp s = .ok s := by
        unfold swTest
        rw [hc, hnode]
        dsimp only
        rw [if_neg (by simp), hdem, if_neg hex, sw_exceeds_falsy hL, if_neg (by simp)]
      obtain ⟨s2, s3, a1, ⟨F, a2⟩, a3, a4, a5, a6, a7, a8⟩ := hadd s g hng rfl rfl hnode hc h.cur
      refine ⟨s3, F, fun inner hi fuel => ?_, ⟨by rw [a3, h.routes], ?_, ?_, a5, a6, a7, a8⟩⟩
      · rw [sweepLoop]
        unfold swHead
        rw [e1]
        dsimp only
        rw [hc]
        simp only [Bool.false_or, Bool.false_and, Bool.false_eq_true, if_false]
        rw [a1]
        dsimp only
        have := a2 inner hi
        dsimp only at this
        rw [this]
      · have := h.cnt
        rw [a4, List.length_append]
        simp only [List.length_cons, List.length_nil]
        omega
      · intro x hx
        rcases List.mem_append.1 hx with hx | hx
        · obtain ⟨i, hi, e⟩ := h.sub x hx
          exact ⟨i, by omega, e⟩
        · exact ⟨k, by omega, by simpa using hx⟩
    obtain ⟨s', F, b1, b2⟩ := hng fun hm => by
      obtain ⟨i, hi, e⟩ := h.sub n hm
      have := swNth_inj hn hs hk (by omega) e
      omega
    exact ⟨s', F, b1, by rw [if_neg hex]; exact b2⟩

theorem loop_all (h0 : 0 ∉ nodes) (hn : nodes.Nodup) (hs : start < nodes.length) (hL : truthy L = false)
    (hser : ∀ n ∈ nodes, Within C C_EPS (d n)) : ∀ (m k : ℕ) (g : List ℕ) (gs : List (List ℕ)) (s : SwState), k + m = nodes.length →
    RunState d C fwd nodes tsp start k g gs s → (g ≠ [] ∨ k < nodes.length) → ∃ F, ∀ inner, F ≤ inner → ∀ fuel, F ≤ fuel →
      sweepLoop D d C L fwd nodes tsp false inner fuel s =
        .ok (some ((gs ++ runsFrom d C g ((List.range' k m).map (swNth fwd nodes start))).map (storedRun d C tsp))) := by
  intro m
  induction m with
  | zero =>
    intro k g gs s hk h hg
    refine ⟨1, fun inner _ fuel hf => ?_⟩
    obtain ⟨fuel, rfl⟩ : ∃ f, fuel = f + 1 := ⟨fuel - 1, by omega⟩
    exact loop_last hL (hg.resolve_right (by omega)) h (by omega) inner fuel
  | succ m ih =>
    intro k g gs s hk h _
    obtain ⟨s', F, h1, h2⟩ := loop_step (D := D) h0 hn hs hL hser h (by omega)
    rw [List.range'_succ, List.map_cons, runsFrom]
    by_cases hex : exceeds C C_EPS (demand d g + d (swNth fwd nodes start k)) = true
    · rw [if_pos hex] at h2 ⊢
      obtain ⟨F', h3⟩ := ih (k + 1) _ _ s' (by omega) h2 (.inl (by simp))
      refine ⟨F + F' + 1, fun inner hi fuel hf => ?_⟩
      obtain ⟨fuel, rfl⟩ : ∃ f, fuel = f + 1 := ⟨fuel - 1, by omega⟩
      rw [h1 inner (by omega), h3 inner (by omega) fuel (by omega), List.append_assoc]
      rfl
    · rw [if_neg hex] at h2 ⊢
      obtain ⟨F', h3⟩ := ih (k + 1) _ _ s' (by omega) h2 (.inl (by simp))
      refine ⟨F + F' + 1, fun inner hi fuel hf => ?_⟩
      obtain ⟨fuel, rfl⟩ : ∃ f, fuel = f + 1 := ⟨fuel - 1, by omega⟩
      rw [h1 inner (by omega), h3 inner (by omega) fuel (by omega)]

theorem around_length (fwd : Bool) (nodes : List ℕ) {start : ℕ} (hs : start < nodes.length) : (around fwd nodes start).length = nodes.length := by
  unfold around
  cases fwd
  · simp only [Bool.false_eq_true, if_false, List.length_append, List.length_reverse, List.length_take, List.length_drop]
    omega
  · simp only [if_true, List.length_append, List.length_take, List.length_drop]
    omega

theorem around_eq (fwd : Bool) (nodes : List ℕ) {start : ℕ} (hs : start < nodes.length) :
    (List.range' 0 nodes.length).map (swNth fwd nodes start) = around fwd nodes start := by
  apply List.ext_getElem
  · rw [around_length fwd nodes hs]
    simp
  · intro k h1 h2
    have hk : k < nodes.length := by simpa using h1
    have hp := posAt_lt fwd (n := nodes.length) (by omega) start k
    simp only [List.getElem_map, List.getElem_range', Nat.zero_add, Nat.one_mul, swNth, List.getElem?_eq_getElem hp, Option.getD_some]
    unfold around
    cases fwd
    · simp only [Bool.false_eq_true, if_false]
      have e1 : (nodes.length - 1) * k + k = nodes.length * k := by
        rw [← Nat.succ_mul]; congr 1; omega
      by_cases hlt : k ≤ start
      · have e2 : posAt false nodes.length start k = start - k := by
          have : start + (nodes.length - 1) * k = (start - k) + nodes.length * k := by omega
          simp only [posAt, Bool.false_eq_true, if_false]
          rw [this, Nat.add_mul_mod_self_left, Nat.mod_eq_of_lt (by omega)]
        rw [List.getElem_append_left (by rw [List.length_reverse, List.length_take]; omega), List.getElem_reverse, List.getElem_take]
        congr 1
        rw [e2, List.length_take]
        omega
      · have e2 : posAt false nodes.length start k = nodes.length + start - k := by
          have e3 : nodes.length * k = nodes.length * (k - 1) + nodes.length := by rw [← Nat.mul_succ]; congr 1; omega
          have : start + (nodes.length - 1) * k = (nodes.length + start - k) + nodes.length * (k - 1) := by omega
          simp only [posAt, Bool.false_eq_true, if_false]
          rw [this, Nat.add_mul_mod_self_left, Nat.mod_eq_of_lt (by omega)]
        rw [List.getElem_append_right (by rw [List.length_reverse, List.length_take]; omega), List.getElem_reverse, List.getElem_drop]
        congr 1
        rw [e2, List.length_drop, List.length_reverse, List.length_take]
        omega
    · simp only [if_true]
      have e2 : posAt true nodes.length start k = (start + k) % nodes.length := by simp [posAt]
      by_cases hlt : start + k < nodes.length
      · rw [List.getElem_append_left (by rw [List.length_drop]; omega), List.getElem_drop]
        congr 1
        rw [e2, Nat.mod_eq_of_lt hlt]
      · rw [List.getElem_append_right (by rw [List.length_drop]; omega), List.getElem_take]
        congr 1
        have : start + k = nodes.length + (start + k - nodes.length) := by omega
        rw [e2, this, Nat.add_mod_left, Nat.mod_eq_of_lt (by omega), List.length_drop]
        omega

theorem around_perm (fwd : Bool) (nodes : List ℕ) (start : ℕ) : (around fwd nodes start).Perm nodes := by
  unfold around
  cases fwd
  · simp only [Bool.false_eq_true, if_false]
    refine ((List.reverse_perm _).append (List.reverse_perm _)).trans ?_
    rw [List.take_append_drop]
  · simp only [if_true]
    refine List.perm_append_comm.trans ?_
    rw [List.take_append_drop]

theorem runsFrom_head (d : ℕ → ℚ) (C : Option ℚ) (g t : List ℕ) : ∃ u r, runsFrom d C g t = (g ++ u) :: r := by
  induction t generalizing g with
  | nil => exact ⟨[], [], by simp [runsFrom]⟩
  | cons x t ih =>
    rw [runsFrom]
    split
    · exact ⟨[], runsFrom d C [x] t, by simp⟩
    · obtain ⟨u, r, e⟩ := ih (g ++ [x])
      exact ⟨x :: u, r, by rw [e]; simp⟩

theorem runsFrom_longest {t : List ℕ} (ht : ∀ x ∈ t, Within C C_EPS (d x)) {g : List ℕ} (hg : g ≠ []) (hw : Within C C_EPS (demand d g)) :
    LongestRuns d C (g ++ t) (runsFrom d C g t) := by
  induction t generalizing g with
  | nil =>
    refine ⟨by simp [runsFrom], by simp [runsFrom, hg.symm], by simpa [runsFrom] using hw, ?_⟩
    intro l r a x b e
    have := congrArg List.length e
    simp only [runsFrom, List.length_cons, List.length_nil, List.length_append] at this
    omega
  | cons x t ih =>
    rw [runsFrom]
    by_cases hex : exceeds C C_EPS (demand d g + d x) = true
    · rw [if_pos hex]
      have h1 : demand d [x] = d x := by simp [demand_cons, demand_nil]
      obtain ⟨a1, a2, a3, a4⟩ := ih (fun y hy => ht y (by simp [hy])) (g := [x]) (by simp) (by rw [h1]; exact ht x (by simp))
      refine ⟨by simp [a1], by simp [hg.symm, a2], ?_, ?_⟩
      · intro y hy
        rcases List.mem_cons.1 hy with rfl | hy
        · exact hw
        · exact a3 y hy
      · intro l r a y b e
        cases l with
        | nil =>
          obtain ⟨u, r', e'⟩ := runsFrom_head d C [x] t
          rw [e'] at e
          simp only [List.nil_append, List.cons.injEq] at e
          obtain ⟨rfl, ⟨rfl, -⟩, -⟩ := e
          intro hh
          rw [(exceeds_iff _ _ _).2 hh] at hex
          simp at hex
        | cons c l =>
          simp only [List.cons_append, List.cons.injEq] at e
          exact a4 l r a y b e.2
    · rw [if_neg hex]
      have h1 : demand d (g ++ [x]) = demand d g + d x := by simp [demand_append, demand_cons, demand_nil]
      have := ih (fun y hy => ht y (by simp [hy])) (g := g ++ [x]) (by simp)
        (by rw [h1]; exact (exceeds_iff _ _ _).1 (by simpa using hex))
      simpa using this

/-- One sweep with the capacity as the only limit. -/
theorem sweep_runs (h0 : 0 ∉ nodes) (hn : nodes.Nodup) (hs : start < nodes.length) (hL : truthy L = false)
    (hser : ∀ n ∈ nodes, Within C C_EPS (d n)) : ∃ gs, LongestRuns d C (around fwd nodes start) gs ∧
      Ends (fun fuel => do_one_sweep fuel D d C L tsp nodes start fwd false) (gs.map (storedRun d C tsp)) := by
  have hl : 0 < nodes.length := by omega
  have e0 : swNth fwd nodes start 0 = nodes[start] := by simp [swNth, posAt_zero fwd hs, List.getElem?_eq_getElem hs]
  obtain ⟨F, hF⟩ := loop_all (D := D) (d := d) (C := C) (L := L) (fwd := fwd) (tsp := tsp) h0 hn hs hL hser nodes.length 0 [] []
    { routes := [], routed := fun n => n == 0, routed_cnt := 0, cur := .new, ub := 0, complete := false, pos := start, node := some nodes[start] }
    (by omega)
    ⟨rfl, rfl, by simp, by simp, by unfold SwRoute.new; simp [demand_nil], fun _ => ⟨rfl, by rw [posAt_zero fwd hs], by rw [e0]⟩, fun h => by omega⟩
    (.inr hl)
  rw [around_eq fwd nodes hs, List.nil_append] at hF
  refine ⟨runsFrom d C [] (around fwd nodes start), ?_, F, fun fuel hf => ?_⟩
  · have hm : ∀ x ∈ around fwd nodes start, Within C C_EPS (d x) := fun x hx => hser x ((around_perm fwd nodes start).mem_iff.1 hx)
    cases ho : around fwd nodes start with
    | nil =>
      have := around_length fwd nodes hs
      rw [ho] at this
      simp at this
      omega
    | cons x t =>
      rw [ho] at hm
      have hx := hm x (by simp)
      have h1 : demand d [x] = d x := by simp [demand_cons, demand_nil]
      rw [runsFrom, if_neg]
      · have := runsFrom_longest (d := d) (C := C) (t := t) (fun y hy => hm y (by simp [hy])) (g := [x]) (by simp) (by rw [h1]; exact hx)
        simpa using this
      · rw [demand_nil, zero_add, (exceeds_iff _ _ _).2 hx]
        simp
  · dsimp only [do_one_sweep]
    rw [idx_lt hs]
    exact hF fuel hf fuel hf

end

end Verif
