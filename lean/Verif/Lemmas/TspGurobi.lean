import Mathlib.Data.List.Chain
import Mathlib.Data.List.Perm.Subperm
import Mathlib.Algebra.BigOperators.Ring.Finset
import Mathlib.Tactic.Linarith
import Mathlib.Tactic.IntervalCases
import Verif.Model.TspGurobi
import Verif.Lemmas.Basic

/-! # Lemmas for C71 -/

namespace Verif
open Spec

variable {n : ℕ} {X : EdgeVars}

theorem mem_edgeNbrs {x y : ℕ} : y ∈ edgeNbrs n X x ↔ y < n ∧ X x y = true := by simp [edgeNbrs]

theorem edgeNbrs_nodup (x : ℕ) : (edgeNbrs n X x).Nodup := List.nodup_range.filter _

theorem edgeNbrs_symm (h : TwoEach n X) {x y : ℕ} (hx : x < n) (hy : y ∈ edgeNbrs n X x) : x ∈ edgeNbrs n X y := by
  rw [mem_edgeNbrs] at hy ⊢
  exact ⟨hx, by rw [h.symm y hy.1 x hx]; exact hy.2⟩

theorem edgeNbrs_ne (h : TwoEach n X) {x y : ℕ} (hx : x < n) (hy : y ∈ edgeNbrs n X x) : y ≠ x := by
  rintro rfl
  rw [mem_edgeNbrs, h.loops _ hx] at hy
  exact absurd hy.2 (by simp)

theorem edgeNbrs_only (h : TwoEach n X) {x a b : ℕ} (hx : x < n) (ha : a ∈ edgeNbrs n X x) (hb : b ∈ edgeNbrs n X x) (hab : a ≠ b)
    {y : ℕ} (hy : y ∈ edgeNbrs n X x) : y = a ∨ y = b := by
  obtain ⟨p, q, hl⟩ := List.length_eq_two.1 (h.two x hx)
  rw [hl] at ha hb hy
  simp only [List.mem_cons, List.not_mem_nil, or_false] at ha hb hy
  rcases ha with rfl | rfl <;> rcases hb with rfl | rfl <;> rcases hy with rfl | rfl <;> simp_all

theorem edgeNbrs_other (h : TwoEach n X) {x : ℕ} (hx : x < n) (a : ℕ) : ∃ b ∈ edgeNbrs n X x, b ≠ a := by
  obtain ⟨p, q, hl⟩ := List.length_eq_two.1 (h.two x hx)
  have hnd := edgeNbrs_nodup (n := n) (X := X) x
  rw [hl] at hnd ⊢
  by_cases hp : p = a
  · exact ⟨q, by simp, fun e => by simp [hp, e] at hnd⟩
  · exact ⟨p, by simp, hp⟩

/-- The state of the walk: `V` was visited before, `pre` in this cycle, and the walk is at `cur`. -/
structure WalkInv (n : ℕ) (X : EdgeVars) (V : List ℕ) (start : ℕ) (pre : List ℕ) (cur : ℕ) (visited : List ℕ) : Prop where
  vis : ∀ x, x ∈ visited ↔ x ∈ V ∨ x ∈ pre
  nodup : (pre ++ [cur]).Nodup
  range : ∀ x ∈ pre ++ [cur], x < n
  away : ∀ x ∈ pre ++ [cur], x ∉ V
  head : (pre ++ [cur]).head? = some start
  chain : List.IsChain (fun a b => X a b = true) (pre ++ [cur])
  inner : ∀ x ∈ pre, x ≠ start → ∀ y ∈ edgeNbrs n X x, y ∈ pre ++ [cur]
  prev : ∀ x ∈ pre, x ≠ start → x ∈ edgeNbrs n X cur → pre.getLast? = some x
  second : pre ≠ [] → ∃ y ∈ pre ++ [cur], y ∈ edgeNbrs n X start ∧ (y = cur → pre.getLast? = some start)

/-- A cycle of the edges that is a component of its own. -/
structure IsCycle (n : ℕ) (X : EdgeVars) (P : List ℕ) : Prop where
  nodup : P.Nodup
  range : ∀ x ∈ P, x < n
  chain : List.IsChain (fun a b => X a b = true) P
  ends : ∀ a ∈ P.head?, ∀ b ∈ P.getLast?, X b a = true
  three : 3 ≤ P.length
  closed : ∀ x ∈ P, ∀ y ∈ edgeNbrs n X x, y ∈ P

theorem length_le_of_range {P : List ℕ} (hnd : P.Nodup) (hr : ∀ x ∈ P, x < n) : P.length ≤ n := by
  have := (List.subperm_of_subset hnd (fun x hx => List.mem_range.2 (hr x hx)) : P.Subperm (List.range n)).length_le
  simpa using this

theorem edgeWalk_spec (h : TwoEach n X) {V : List ℕ} (hV : ∀ x ∈ V, x < n ∧ ∀ y ∈ edgeNbrs n X x, y ∈ V) {start : ℕ} (fuel : ℕ)
    {pre : List ℕ} {cur : ℕ} {visited : List ℕ} (hw : WalkInv n X V start pre cur visited) (hf : n ≤ fuel + pre.length) :
    ∃ P vis, edgeWalk n X fuel visited cur (pre ++ [cur]) = some (vis, P) ∧ IsCycle n X P ∧ P.head? = some start ∧
      (∀ x ∈ P, x ∉ V) ∧ ∀ x, x ∈ vis ↔ x ∈ V ∨ x ∈ P := by
  induction fuel generalizing pre cur visited with
  | zero =>
    have := length_le_of_range hw.nodup hw.range
    simp at this
    omega
  | succ fuel ih =>
    have hcn : cur < n := hw.range cur (by simp)
    have hnd := hw.nodup
    have hcp : cur ∉ pre := by
      rw [List.nodup_append] at hnd
      exact fun hm => hnd.2.2 cur hm cur (by simp) rfl
    have hch := hw.chain
    rw [List.isChain_append] at hch
    rw [edgeWalk]
    match hm : (edgeNbrs n X cur).filter (fun x => decide (x ∉ cur :: visited)) with
    | x :: rest =>
      simp only
      have hx : x ∈ (edgeNbrs n X cur).filter (fun x => decide (x ∉ cur :: visited)) := by rw [hm]; simp
      rw [List.mem_filter] at hx
      obtain ⟨hx1, hx2⟩ := hx
      simp only [List.mem_cons, not_or, decide_eq_true_eq, hw.vis] at hx2
      obtain ⟨hxc, hxV, hxp⟩ := hx2
      have hxP : x ∉ pre ++ [cur] := by simp [hxp, hxc]
      have hpc : ∀ p, pre.getLast? = some p → p ∈ edgeNbrs n X cur := fun p hp => by
        have hpm : p ∈ pre := List.mem_of_getLast? hp
        have hpn := hw.range p (by simp [hpm])
        exact edgeNbrs_symm h hpn (mem_edgeNbrs.2 ⟨hcn, hch.2.2 p hp cur (by simp)⟩)
      refine ih (pre := pre ++ [cur]) ⟨fun y => ?_, ?_, ?_, ?_, ?_, ?_, ?_, ?_, ?_⟩ (by simp; omega)
      · simp only [List.mem_cons, hw.vis, List.mem_append, List.not_mem_nil, or_false]; tauto
      · rw [List.nodup_append]
        exact ⟨hnd, by simp, fun a ha b hb => by simp at hb; rw [hb]; rintro rfl; exact hxP ha⟩
      · intro y hy
        rcases List.mem_append.1 hy with hy | hy
        · exact hw.range y hy
        · rw [List.mem_singleton.1 hy]; exact (mem_edgeNbrs.1 hx1).1
      · intro y hy
        rcases List.mem_append.1 hy with hy | hy
        · exact hw.away y hy
        · rw [List.mem_singleton.1 hy]; exact hxV
      · rw [List.head?_append, hw.head]; rfl
      · rw [List.isChain_append]
        refine ⟨hw.chain, by simp, fun a ha b hb => ?_⟩
        simp at ha hb
        rw [← ha, ← hb]
        exact (mem_edgeNbrs.1 hx1).2
      · intro y hy hys z hz
        rcases List.mem_append.1 hy with hy | hy
        · exact List.mem_append.2 (.inl (hw.inner y hy hys z hz))
        · rw [List.mem_singleton] at hy
          subst hy
          have hne : pre ≠ [] := by
            rintro rfl
            have := hw.head
            simp at this
            exact hys this
          obtain ⟨p, hp⟩ : ∃ p, pre.getLast? = some p := ⟨_, List.getLast?_eq_getLast_of_ne_nil hne⟩
          have hpm : p ∈ pre := List.mem_of_getLast? hp
          rcases edgeNbrs_only h hcn (hpc p hp) hx1 (fun e => hxp (e ▸ hpm)) hz with rfl | rfl
          · simp [hpm]
          · simp
      · intro y hy hys hyx
        have hyn := hw.range y hy
        rcases List.mem_append.1 hy with hy | hy
        · exact absurd (hw.inner y hy hys x (edgeNbrs_symm h (mem_edgeNbrs.1 hx1).1 hyx)) hxP
        · rw [List.mem_singleton] at hy
          rw [hy]; simp
      · intro _
        by_cases hne : pre = []
        · subst hne
          have hs := hw.head
          simp at hs
          subst hs
          exact ⟨x, by simp, hx1, fun _ => by simp⟩
        · obtain ⟨y, y1, y2, y3⟩ := hw.second hne
          exact ⟨y, List.mem_append.2 (.inl y1), y2, fun e => absurd (e ▸ y1) hxP⟩
    | [] =>
      simp only
      have hall : ∀ y ∈ edgeNbrs n X cur, y ∈ V ∨ y ∈ pre ++ [cur] := by
        intro y hy
        by_contra hcon
        have : y ∈ (edgeNbrs n X cur).filter (fun x => decide (x ∉ cur :: visited)) := by
          rw [List.mem_filter]
          refine ⟨hy, ?_⟩
          simp only [List.mem_cons, not_or, decide_eq_true_eq, hw.vis]
          simp only [List.mem_append, List.mem_singleton, not_or] at hcon
          exact ⟨hcon.2.2, hcon.1, hcon.2.1⟩
        rw [hm] at this
        simp at this
      have hpre : ∀ y ∈ edgeNbrs n X cur, y ∈ pre := by
        intro y hy
        rcases hall y hy with hv | hv
        · exact absurd ((hV y hv).2 cur (edgeNbrs_symm h hcn hy)) (hw.away cur (by simp))
        · rcases List.mem_append.1 hv with hv | hv
          · exact hv
          · exact absurd (List.mem_singleton.1 hv) (edgeNbrs_ne h hcn hy)
      have hne : pre ≠ [] := by
        rintro rfl
        obtain ⟨b, hb, _⟩ := edgeNbrs_other h hcn 0
        exact absurd (hpre b hb) (by simp)
      obtain ⟨p, hp⟩ : ∃ p, pre.getLast? = some p := ⟨_, List.getLast?_eq_getLast_of_ne_nil hne⟩
      have hpm : p ∈ pre := List.mem_of_getLast? hp
      have hpn := hw.range p (by simp [hpm])
      have hpc : p ∈ edgeNbrs n X cur := edgeNbrs_symm h hpn (mem_edgeNbrs.2 ⟨hcn, hch.2.2 p hp cur (by simp)⟩)
      obtain ⟨z, hz, hzp⟩ := edgeNbrs_other h hcn p
      have hzs : z = start := by
        by_contra hzs
        have := hw.prev z (hpre z hz) hzs hz
        rw [hp] at this
        injection this with this
        exact hzp this.symm
      subst hzs
      have hzn := hw.range z (by simp [hpre z hz])
      have hcz : cur ∈ edgeNbrs n X z := edgeNbrs_symm h hcn hz
      obtain ⟨y, y1, y2, y3⟩ := hw.second hne
      have hyc : y ≠ cur := fun e => by
        have := y3 e
        rw [hp] at this
        injection this with this
        exact hzp this.symm
      refine ⟨pre ++ [cur], cur :: visited, rfl, ⟨hnd, hw.range, hw.chain, fun a ha b hb => ?_, ?_, fun x hx w hw' => ?_⟩, hw.head, hw.away,
        fun x => ?_⟩
      · rw [hw.head] at ha
        simp at ha hb
        rw [← ha, ← hb]
        exact (mem_edgeNbrs.1 hz).2
      · have : 2 ≤ pre.length := by
          by_contra hlt
          have hl : pre.length = 1 := by have := List.length_pos_iff.2 hne; omega
          obtain ⟨q, rfl⟩ := List.length_eq_one_iff.1 hl
          have e1 := hpre z hz
          simp at hp e1
          exact hzp (e1.trans hp)
        simp; omega
      · rcases List.mem_append.1 hx with hx | hx
        · by_cases hxz : x = z
          · subst hxz
            rcases edgeNbrs_only h hzn y2 hcz hyc hw' with rfl | rfl
            · exact y1
            · simp
          · exact hw.inner x hx hxz w hw'
        · rw [List.mem_singleton] at hx
          subst hx
          exact List.mem_append.2 (.inl (hpre w hw'))
      · simp only [List.mem_cons, hw.vis, List.mem_append, List.not_mem_nil, or_false]; tauto

/-- The cycles found so far. -/
structure CyclesInv (n : ℕ) (X : EdgeVars) (visited : List ℕ) (cycles : List (List ℕ)) : Prop where
  vis : ∀ x, x ∈ visited ↔ x ∈ cycles.flatten
  nodup : cycles.flatten.Nodup
  each : ∀ c ∈ cycles, IsCycle n X c
  first : ∀ c ∈ cycles.head?, c.head? = some 0

theorem CyclesInv.range {visited : List ℕ} {cycles : List (List ℕ)} (h : CyclesInv n X visited cycles) :
    ∀ x ∈ cycles.flatten, x < n := by
  intro x hx
  obtain ⟨c, hc, hx⟩ := List.mem_flatten.1 hx
  exact (h.each c hc).range x hx

theorem length_le_flatten : ∀ {cycles : List (List ℕ)}, (∀ c ∈ cycles, 1 ≤ c.length) → cycles.length ≤ cycles.flatten.length
  | [], _ => by simp
  | c :: cs, h => by
    have h1 := h c (by simp)
    have h2 := length_le_flatten fun d hd => h d (List.mem_cons_of_mem _ hd)
    simp only [List.length_cons, List.flatten_cons, List.length_append]
    omega

theorem edgeCycles_spec (h : TwoEach n X) (fuel : ℕ) {visited : List ℕ} {cycles : List (List ℕ)} (hi : CyclesInv n X visited cycles)
    (hs : cycles.flatten.length < n) (hf : n < fuel + cycles.length) :
    ∃ cs vis, edgeCycles n X fuel visited cycles = .ok (some cs) ∧ CyclesInv n X vis cs ∧ cs.flatten.length = n := by
  induction fuel generalizing visited cycles with
  | zero =>
    have := length_le_flatten fun c hc => (by have := (hi.each c hc).three; omega : 1 ≤ c.length)
    omega
  | succ fuel ih =>
    rw [edgeCycles]
    match hfd : (List.range n).find? (fun x => decide (x ∉ visited)) with
    | none =>
      exfalso
      rw [List.find?_eq_none] at hfd
      have : (List.range n).Subperm cycles.flatten := List.subperm_of_subset List.nodup_range fun x hx => by
        have := hfd x hx
        simp only [decide_eq_true_eq, not_not] at this
        exact (hi.vis x).1 this
      have := this.length_le
      simp at this hs
      omega
    | some c =>
      simp only
      have hc1 := List.find?_some hfd
      simp only [decide_eq_true_eq] at hc1
      have hcn := List.mem_range.1 (List.mem_of_find?_eq_some hfd)
      have hV : ∀ x ∈ visited, x < n ∧ ∀ y ∈ edgeNbrs n X x, y ∈ visited := by
        intro x hx
        obtain ⟨d, hd, hxd⟩ := List.mem_flatten.1 ((hi.vis x).1 hx)
        exact ⟨(hi.each d hd).range x hxd, fun y hy => (hi.vis y).2 (List.mem_flatten.2 ⟨d, hd, (hi.each d hd).closed x hxd y hy⟩)⟩
      obtain ⟨P, vis, g1, g2, g3, g4, g5⟩ := edgeWalk_spec h hV (n + 1) (start := c) (pre := []) (cur := c) (visited := visited)
        ⟨fun x => by simp, by simp, by simpa using hcn, by simpa using hc1, by simp, by simp, by simp, by simp, by simp⟩ (by simp)
      rw [List.nil_append] at g1
      rw [g1]
      simp only
      have hi' : CyclesInv n X vis (cycles ++ [P]) := by
        refine ⟨fun x => ?_, ?_, fun d hd => ?_, fun d hd => ?_⟩
        · rw [g5, hi.vis]; simp
        · rw [List.flatten_append, List.nodup_append]
          refine ⟨hi.nodup, by simpa using g2.nodup, fun a ha b hb => ?_⟩
          rintro rfl
          exact g4 a (by simpa using hb) ((hi.vis a).2 ha)
        · rcases List.mem_append.1 hd with hd | hd
          · exact hi.each d hd
          · rw [List.mem_singleton.1 hd]; exact g2
        · cases hcy : cycles with
          | nil =>
            rw [hcy] at hd
            simp at hd
            rw [← hd, g3]
            have hv : visited = [] := List.eq_nil_iff_forall_not_mem.2 fun x hx => by
              have := (hi.vis x).1 hx
              rw [hcy] at this
              simp at this
            rw [hv] at hfd
            obtain ⟨m, rfl⟩ : ∃ m, n = m + 1 := ⟨n - 1, by omega⟩
            rw [List.range_succ_eq_map] at hfd
            simp at hfd
            rw [← hfd]
          | cons e es =>
            rw [hcy] at hd
            apply hi.first
            rw [hcy]
            simpa using hd
      have hsum : ((cycles ++ [P]).map List.length).sum = (cycles ++ [P]).flatten.length := List.length_flatten.symm
      rw [hsum]
      by_cases he : (cycles ++ [P]).flatten.length = n
      · rw [if_pos he]
        exact ⟨_, vis, rfl, hi', he⟩
      · rw [if_neg he]
        have := length_le_of_range hi'.nodup hi'.range
        exact ih hi' (by omega) (by simp; omega)

theorem shortestCycle_spec {cs : List (List ℕ)} (h : cs ≠ []) :
    shortestCycle cs ∈ cs ∧ ∀ c ∈ cs, (shortestCycle cs).length ≤ c.length := by
  have key : ∀ (cs : List (List ℕ)) (m : List ℕ),
      (cs.foldl (fun m x => if x.length < m.length then x else m) m ∈ m :: cs) ∧
      ∀ c ∈ m :: cs, (cs.foldl (fun m x => if x.length < m.length then x else m) m).length ≤ c.length := by
    intro cs
    induction cs with
    | nil => simp
    | cons c cs ih =>
      intro m
      obtain ⟨h1, h2⟩ := ih (if c.length < m.length then c else m)
      rw [List.foldl_cons]
      constructor
      · rcases List.mem_cons.1 h1 with h1 | h1
        · rw [h1]; split_ifs <;> simp
        · exact List.mem_cons_of_mem _ (List.mem_cons_of_mem _ h1)
      · intro d hd
        rcases List.mem_cons.1 hd with rfl | hd
        · refine (h2 _ List.mem_cons_self).trans ?_
          split_ifs <;> omega
        · rcases List.mem_cons.1 hd with rfl | hd
          · refine (h2 _ List.mem_cons_self).trans ?_
            split_ifs <;> omega
          · exact h2 d (List.mem_cons_of_mem _ hd)
  cases cs with
  | nil => exact absurd rfl h
  | cons c cs => exact key cs c

theorem subtour_spec (hn : 0 < n) (h : TwoEach n X) :
    ∃ t, subtour n X = .ok (some t) ∧ IsCycle n X t ∧ t.length ≤ n ∧ (t.length = n → t.head? = some 0) := by
  obtain ⟨cs, vis, g1, g2, g3⟩ := edgeCycles_spec h (n + 1) (visited := []) (cycles := [])
    ⟨by simp, by simp, by simp, by simp⟩ (by simpa using hn) (by simp)
  have hne : cs ≠ [] := by rintro rfl; simp at g3; omega
  obtain ⟨s1, s2⟩ := shortestCycle_spec hne
  refine ⟨shortestCycle cs, by rw [subtour, g1], g2.each _ s1, length_le_of_range (g2.each _ s1).nodup (g2.each _ s1).range, fun hl => ?_⟩
  cases cs with
  | nil => exact absurd rfl hne
  | cons c cs =>
    have : cs = [] := by
      cases cs with
      | nil => rfl
      | cons d ds =>
        have h1 := s2 c (by simp)
        have h2 := s2 d (by simp)
        simp only [List.flatten_cons, List.length_append] at g3
        omega
    subst this
    rw [List.mem_singleton.1 s1]
    exact g2.first c (by simp)

end Verif
