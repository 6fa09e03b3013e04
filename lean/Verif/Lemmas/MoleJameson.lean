import Verif.Model.MoleJameson
import Verif.Lemmas.CheapestInsertion
import Verif.Lemmas.Sweep
import Verif.Props.IntraRoute
import Verif.Lemmas.Ropt

/-! # Lemmas for the insertion procedure with a callback, and for the insertion with 2-opt -/

namespace Verif
open Spec

/-! ## The callback of the library -/

theorem ciPopLoopCb_default {D : ℕ → ℕ → ℚ} {d : ℕ → ℚ} {C L : Option ℚ} (strain : ℕ → ℕ → ℕ → ℚ × ℚ) (mk : Bool)
    (pick : List Ins → ℕ) (un : List ℕ) : ∀ (n : ℕ) (rd : CIRoute),
    ciPopLoopCb D d C L strain (ciDefault D L mk) pick un n rd =
      (ciPopLoop D d C L strain mk pick un n rd).map some := by
  intro n
  induction n with
  | zero => intro rd; rfl
  | succ n ih =>
    intro rd
    unfold ciPopLoopCb ciPopLoop
    cases idx rd.heap (pick rd.heap) with
    | error e => rfl
    | ok ins =>
      simp only
      by_cases hv : ciValid d C ins { rd with heap := rd.heap.eraseIdx (pick rd.heap) } un = true
      · rw [if_pos hv, if_pos hv]
        unfold ciDefault
        cases ht : ciTry D L mk ins { rd with heap := rd.heap.eraseIdx (pick rd.heap) } with
        | none => exact ih _
        | some p => rfl
      · rw [if_neg hv, if_neg hv]; exact ih _

theorem ciLoopCb_default {D : ℕ → ℕ → ℚ} {d : ℕ → ℚ} {C L : Option ℚ} (strain : ℕ → ℕ → ℕ → ℚ × ℚ) (mk : Bool)
    (pick : List Ins → ℕ) : ∀ (fuel : ℕ) (s : CIState),
    ciLoopCb D d C L strain (ciDefault D L mk) pick fuel s = ciLoop D d C L strain mk pick fuel s := by
  intro fuel
  induction fuel with
  | zero => intro s; rfl
  | succ fuel ih =>
    intro s
    have hstep : ciStepCb D d C L strain (ciDefault D L mk) pick s =
        (ciStep D d C L strain mk pick s).map some := by
      unfold ciStepCb ciStep
      cases idx s.routes s.k with
      | error e => rfl
      | ok rd =>
        simp only
        rw [ciPopLoopCb_default]
        cases ciPopLoop D d C L strain mk pick s.unrouted (ciGenerate D d C L strain s.unrouted rd).heap.length
          (ciGenerate D d C L strain s.unrouted rd) with
        | error e => rfl
        | ok p =>
          simp only [Except.map]
          cases ciRenew D d s p.1 p.2 <;> rfl
    unfold ciLoopCb ciLoop
    by_cases he : s.unrouted = []
    · rw [if_pos he, if_pos he]
    · rw [if_neg he, if_neg he, hstep]
      cases ciStep D d C L strain mk pick s with
      | error e => rfl
      | ok s' => exact ih s'

/-! ## Any callback -/

/-- What is asked of an answer of the callback. -/
def CbAnswer (D : ℕ → ℕ → ℚ) (d : ℕ → ℚ) (C L : Option ℚ) (P Q : Prop) (c : ℕ) (rd : CIRoute) :
    Option (CIRoute × List (CINode × CINode)) → Prop
  | none => True
  | some (rd', es) => CIRouteOk D d C L P Q rd' ∧ rd'.custs.Perm (c :: rd.custs) ∧
      ∀ e ∈ es, e.1 ∈ rd'.route ∧ e.2 ∈ rd'.route

/-- What is asked of a callback (with fuel). -/
def CbOk (D : ℕ → ℕ → ℚ) (d : ℕ → ℚ) (C L : Option ℚ) (P Q : Prop) (cb : ℕ → CICallback) : Prop :=
  ∀ rd ins un, CIRouteOk D d C L P Q rd → InsOk D d C rd.route ins → ciValid d C ins rd un = true →
    ∃ o, Ends (fun fuel => cb fuel ins rd) o ∧ CbAnswer D d C L P Q ins.customer rd o

theorem ciFold_ok {D : ℕ → ℕ → ℚ} {d : ℕ → ℚ} {C L : Option ℚ} {P Q : Prop} (strain : ℕ → ℕ → ℕ → ℚ × ℚ)
    (un : List ℕ) : ∀ (es : List (CINode × CINode)) (rd : CIRoute), CIRouteOk D d C L P Q rd →
      (∀ e ∈ es, e.1 ∈ rd.route ∧ e.2 ∈ rd.route) →
      CIRouteOk D d C L P Q (es.foldl (fun rd p => ciNewInsertions D d C L strain un rd p.1 p.2) rd) ∧
      (es.foldl (fun rd p => ciNewInsertions D d C L strain un rd p.1 p.2) rd).route = rd.route := by
  intro es
  induction es with
  | nil => intro rd h _; exact ⟨h, rfl⟩
  | cons p ps ih =>
    intro rd h hz
    rw [List.foldl_cons]
    have hp := hz p (by simp)
    exact ih (ciNewInsertions D d C L strain un rd p.1 p.2) (ciNewInsertions_ok strain un h hp.1 hp.2)
      (fun q hq => hz q (by simp [hq]))

theorem ciValid_mem {d : ℕ → ℚ} {C : Option ℚ} {ins : Ins} {rd : CIRoute} {un : List ℕ}
    (hv : ciValid d C ins rd un = true) : ins.customer ∈ un := by
  unfold ciValid at hv
  by_contra v1
  rw [if_pos v1] at hv
  cases hv

/-- The inner loop. -/
theorem ciPopLoopCb_spec {D : ℕ → ℕ → ℚ} {d : ℕ → ℚ} {C L : Option ℚ} {P Q : Prop} {cb : ℕ → CICallback}
    (strain : ℕ → ℕ → ℕ → ℚ × ℚ) {pick : List Ins → ℕ} (hpick : PickOk pick) (un : List ℕ)
    (hcb : CbOk D d C L P Q cb) :
    ∀ (n : ℕ) (rd : CIRoute), rd.heap.length = n → CIRouteOk D d C L P Q rd →
      ∃ rd' un', Ends (fun fuel => ciPopLoopCb D d C L strain (cb fuel) pick un n rd) (rd', un') ∧
        CIRouteOk D d C L P Q rd' ∧
        ((rd'.heap = [] ∧ un' = un ∧ rd'.custs = rd.custs) ∨
          ∃ c ∈ un, un' = un.erase c ∧ rd'.custs.Perm (c :: rd.custs)) := by
  intro n
  induction n with
  | zero =>
    intro rd hn h
    exact ⟨rd, un, ⟨0, fun _ _ => rfl⟩, h, .inl ⟨List.length_eq_zero_iff.1 hn, rfl, rfl⟩⟩
  | succ n ih =>
    intro rd hn h
    have hlt := hpick rd.heap (by intro e; rw [e] at hn; simp at hn)
    have hget : rd.heap[pick rd.heap]? = some rd.heap[pick rd.heap] := List.getElem?_eq_getElem hlt
    generalize hins : rd.heap[pick rd.heap] = ins at hget
    have hmem : ins ∈ rd.heap := List.mem_of_getElem? hget
    have hidx : idx rd.heap (pick rd.heap) = .ok ins := by rw [idx, hget]
    have hs : ∀ x ∈ rd.heap.eraseIdx (pick rd.heap), x ∈ rd.heap := fun x hx => List.mem_of_mem_eraseIdx hx
    have h' := h.shrink hs
    have hl' : (rd.heap.eraseIdx (pick rd.heap)).length = n := by
      rw [List.length_eraseIdx_of_lt hlt, hn]; rfl
    obtain ⟨rd1, un1, ⟨F1, i1⟩, i2, i3⟩ := ih { rd with heap := rd.heap.eraseIdx (pick rd.heap) } hl' h'
    by_cases hv : ciValid d C ins { rd with heap := rd.heap.eraseIdx (pick rd.heap) } un = true
    · obtain ⟨o, ⟨F2, ho⟩, ha⟩ := hcb _ ins un h' (h.heap ins hmem) hv
      simp only at ho
      cases o with
      | none =>
        refine ⟨rd1, un1, ⟨max F1 F2, fun fuel hf => ?_⟩, i2, i3⟩
        simp only
        rw [ciPopLoopCb, hidx]
        simp only
        rw [if_pos hv, ho fuel (by omega)]
        exact i1 fuel (by omega)
      | some p =>
        obtain ⟨rd2, es⟩ := p
        obtain ⟨a1, a2, a3⟩ := ha
        obtain ⟨b1, b2⟩ := ciFold_ok strain (un.erase ins.customer) es rd2 a1 a3
        refine ⟨_, _, ⟨F2, fun fuel hf => ?_⟩, b1, .inr ⟨ins.customer, ciValid_mem hv, rfl, ?_⟩⟩
        · simp only
          rw [ciPopLoopCb, hidx]
          simp only
          rw [if_pos hv, ho fuel hf]
        · rw [custs_of_route b2]; exact a2
    · refine ⟨rd1, un1, ⟨F1, fun fuel hf => ?_⟩, i2, i3⟩
      simp only
      rw [ciPopLoopCb, hidx]
      simp only
      rw [if_neg hv]
      exact i1 fuel hf

/-- A round of the main loop. -/
theorem ciStepCb_spec {N : ℕ} {D : ℕ → ℕ → ℚ} {d : ℕ → ℚ} {C L : Option ℚ} {P Q R : Prop} {cb : ℕ → CICallback}
    (strain : ℕ → ℕ → ℕ → ℚ × ℚ) {pick : List Ins → ℕ} (hpick : PickOk pick) (hcb : CbOk D d C L P Q cb)
    (hS : SeedsOk N D d C L P Q R) {s : CIState} (h : CIInv N D d C L P Q R s) (hk : s.k < s.routes.length)
    (hne : s.unrouted ≠ []) :
    ∃ s', Ends (fun fuel => ciStepCb D d C L strain (cb fuel) pick s) s' ∧ CIInv N D d C L P Q R s' ∧
      s'.k < s'.routes.length ∧ s'.unrouted.length < s.unrouted.length := by
  have hget : s.routes[s.k]? = some s.routes[s.k] := List.getElem?_eq_getElem hk
  generalize s.routes[s.k] = rd at hget
  have hrd := h.routes rd (List.mem_of_getElem? hget)
  obtain ⟨g1, g2⟩ := ciGenerate_ok strain s.unrouted hrd
  obtain ⟨rd1, un1, ⟨F, p1⟩, p2, p3⟩ := ciPopLoopCb_spec strain hpick s.unrouted hcb _ _ rfl g1
  rw [custs_of_route g2] at p3
  simp only at p1
  obtain ⟨s', q1, q2⟩ := ciRenew_spec hS h hk hne hget p2 p3
  refine ⟨s', ⟨F, fun fuel hf => ?_⟩, q2⟩
  simp only
  rw [ciStepCb, show idx s.routes s.k = .ok rd by rw [idx, hget]]
  simp only
  rw [p1 fuel hf]
  simp only
  rw [q1]

theorem ciLoopCb_spec {N : ℕ} {D : ℕ → ℕ → ℚ} {d : ℕ → ℚ} {C L : Option ℚ} {P Q R : Prop} {cb : ℕ → CICallback}
    (strain : ℕ → ℕ → ℕ → ℚ × ℚ) {pick : List Ins → ℕ} (hpick : PickOk pick) (hcb : CbOk D d C L P Q cb)
    (hS : SeedsOk N D d C L P Q R) {s : CIState} (h : CIInv N D d C L P Q R s) (hk : s.k < s.routes.length) :
    ∃ s', Ends (fun fuel => ciLoopCb D d C L strain (cb fuel) pick fuel s) s' ∧
      CIInv N D d C L P Q R s' ∧ s'.unrouted = [] := by
  suffices H : ∃ s', (∃ F, ∀ f1 f2, F ≤ f1 → F ≤ f2 → ciLoopCb D d C L strain (cb f1) pick f2 s = .ok (some s')) ∧
      CIInv N D d C L P Q R s' ∧ s'.unrouted = [] by
    obtain ⟨s', ⟨F, e⟩, h⟩ := H
    exact ⟨s', ⟨F, fun fuel hf => e fuel fuel hf hf⟩, h⟩
  induction hn : s.unrouted.length using Nat.strong_induction_on generalizing s with
  | _ n ih =>
    by_cases he : s.unrouted = []
    · refine ⟨s, ⟨1, fun f1 f2 _ hf => ?_⟩, h, he⟩
      obtain ⟨f, rfl⟩ : ∃ f, f2 = f + 1 := ⟨f2 - 1, by omega⟩
      rw [ciLoopCb, if_pos he]
    · obtain ⟨s1, ⟨F1, e1⟩, e2, e3, e4⟩ := ciStepCb_spec strain hpick hcb hS h hk he
      simp only at e1
      obtain ⟨s', ⟨F2, i1⟩, i2, i3⟩ := ih _ (hn ▸ e4) e2 e3 rfl
      refine ⟨s', ⟨max F1 F2 + 1, fun f1 f2 h1 h2 => ?_⟩, i2, i3⟩
      obtain ⟨f, rfl⟩ : ∃ f, f2 = f + 1 := ⟨f2 - 1, by omega⟩
      rw [ciLoopCb, if_neg he, e1 f1 (by omega)]
      exact i1 f1 f (by omega) (by omega)

/-! ## 2-opt -/

/-- No reversal makes the route cheaper by more than the tolerance. -/
def TwoOptimal (D : ℕ → ℕ → ℚ) (u : List ℕ) : Prop :=
  ∀ r', Nb2opt (wrap u) r' → ¬ cost D r' + S_EPS < cost D (wrap u)

theorem nb2opt_wrap {u r' : List ℕ} (h : Nb2opt (wrap u) r') : ∃ u', r' = wrap u' ∧ u'.Perm u := by
  obtain ⟨A, B, C, hA, hB, hC, e, rfl⟩ := h
  rw [List.append_assoc] at e
  obtain ⟨u1, u2, e1, e2, e3⟩ := wrap_parts hA (by simp [hB]) e
  obtain ⟨C', y, rfl⟩ : ∃ C' y, C = C' ++ [y] := ⟨C.dropLast, C.getLast hC, (List.dropLast_append_getLast hC).symm⟩
  rw [← List.append_assoc] at e3
  obtain ⟨e4, e5⟩ := List.append_inj' e3 rfl
  injection e5 with e5
  refine ⟨u1 ++ (B.reverse ++ C'), by simp [wrap, e2, e5], ?_⟩
  rw [e1, ← e4]
  exact ((List.reverse_perm B).append_right _).append_left _

theorem mjTwoOpt_spec {D : ℕ → ℕ → ℚ} (hD : Symm D) (u0 : List ℕ) :
    ∀ (t : ℚ) (b : Bool), ∃ u' t' b', Ends (fun fuel => mjTwoOpt D fuel (wrap u0) t b) (wrap u', t', b') ∧
      u'.Perm u0 ∧ t' = t + (cost D (wrap u') - cost D (wrap u0)) ∧ t' ≤ t ∧ TwoOptimal D u' ∧
      (b' = false → u' = u0 ∧ t' = t) := by
  obtain ⟨m, hm⟩ := cost_perm_bdd D (wrap u0)
  obtain ⟨n, hn⟩ := exists_steps (cost D (wrap u0) - m)
  have key : ∀ (n : ℕ) (u : List ℕ) (t : ℚ) (b : Bool), u.Perm u0 → cost D (wrap u) - m ≤ n * S_EPS →
      ∃ u' t' b', Ends (fun fuel => mjTwoOpt D fuel (wrap u) t b) (wrap u', t', b') ∧
      u'.Perm u0 ∧ t' = t + (cost D (wrap u') - cost D (wrap u)) ∧ t' ≤ t ∧ TwoOptimal D u' ∧
      (b' = false → u' = u ∧ t' = t) := by
    intro n
    induction n with
    | zero =>
      intro u t b hu hc
      obtain ⟨o, h1, h2⟩ := C12_two_opt hD (wrap u) .BEST_ACCEPT none
      cases o with
      | none =>
        refine ⟨u, t, b, ⟨1, fun fuel hf => ?_⟩, hu, by ring, le_refl _, ?_, fun _ => ⟨rfl, rfl⟩⟩
        · obtain ⟨f, rfl⟩ : ∃ f, fuel = f + 1 := ⟨fuel - 1, by omega⟩
          simp only [mjTwoOpt, h1]
        · intro r' hr' hlt
          exact h2 r' hr' (by simp only [Option.getD_none]; linarith)
      | some p =>
        exfalso
        obtain ⟨r', δ⟩ := p
        obtain ⟨g1, g2, g3, -⟩ := h2
        obtain ⟨u', rfl, hp⟩ := nb2opt_wrap g1
        have hw : (wrap u').Perm (wrap u0) := ((hp.trans hu).append_right [0]).cons 0
        have := hm _ hw
        simp only [Option.getD_none] at g3
        have hS := S_EPS_pos
        simp only [Nat.cast_zero, zero_mul] at hc
        linarith
    | succ n ih =>
      intro u t b hu hc
      obtain ⟨o, h1, h2⟩ := C12_two_opt hD (wrap u) .BEST_ACCEPT none
      cases o with
      | none =>
        refine ⟨u, t, b, ⟨1, fun fuel hf => ?_⟩, hu, by ring, le_refl _, ?_, fun _ => ⟨rfl, rfl⟩⟩
        · obtain ⟨f, rfl⟩ : ∃ f, fuel = f + 1 := ⟨fuel - 1, by omega⟩
          simp only [mjTwoOpt, h1]
        · intro r' hr' hlt
          exact h2 r' hr' (by simp only [Option.getD_none]; linarith)
      | some p =>
        obtain ⟨r', δ⟩ := p
        obtain ⟨g1, g2, g3, -⟩ := h2
        obtain ⟨u', rfl, hp⟩ := nb2opt_wrap g1
        simp only [Option.getD_none] at g3
        have hS := S_EPS_pos
        obtain ⟨u2, t2, b2, ⟨F, e1⟩, e2, e3, e4, e5, e6⟩ := ih u' (t + δ) true (hp.trans hu) (by
          push_cast at hc; rw [g2]; linarith)
        simp only at e1
        have hb2 : b2 = true := by
          have mono : ∀ f r t x, mjTwoOpt D f r t true = .ok (some x) → x.2.2 = true := by
            intro f
            induction f with
            | zero => intro r t x h; cases h
            | succ f ihf =>
              intro r t x h
              unfold mjTwoOpt at h
              cases hq : do_2opt_move r D .BEST_ACCEPT none with
              | error e => rw [hq] at h; cases h
              | ok o =>
                rw [hq] at h
                cases o with
                | none =>
                  simp only [Except.ok.injEq, Option.some.injEq] at h
                  rw [← h]
                | some p => exact ihf _ _ _ h
          exact mono F _ _ _ (e1 F (le_refl _))
        refine ⟨u2, t2, b2, ⟨F + 1, fun fuel hf => ?_⟩, e2, by rw [e3, g2]; ring, by linarith, e5, fun hb => ?_⟩
        · obtain ⟨f, rfl⟩ : ∃ f, fuel = f + 1 := ⟨fuel - 1, by omega⟩
          simp only [mjTwoOpt, h1]
          exact e1 f (by omega)
        · rw [hb2] at hb; cases hb
  intro t b
  exact key n u0 t b (List.Perm.refl _) hn

/-! ## The insertion with 2-opt -/

/-- Routes of nodes numbered from the first. -/
theorem zipIdx_nodes (r : List ℕ) :
    ((r.zipIdx.map fun p => (⟨p.2, p.1⟩ : CINode)).map (·.val)) = r ∧
    ((r.zipIdx.map fun p => (⟨p.2, p.1⟩ : CINode)).map (·.id)).Nodup ∧
    (∀ x ∈ r.zipIdx.map fun p => (⟨p.2, p.1⟩ : CINode), x.id < r.length) := by
  refine ⟨?_, ?_, ?_⟩
  · rw [List.map_map]; exact List.zipIdx_map_fst 0 _
  · rw [List.map_map]
    have : ((fun x : CINode => x.id) ∘ fun p : ℕ × ℕ => (⟨p.2, p.1⟩ : CINode)) = Prod.snd := rfl
    rw [this, List.zipIdx_map_snd]
    exact List.nodup_range'
  · intro x hx
    obtain ⟨p, hp, rfl⟩ := List.mem_map.1 hx
    have := List.snd_lt_of_mem_zipIdx hp
    simpa using this

/-- The route with the customer, before 2-opt. -/
structure MjPlaced (D : ℕ → ℕ → ℚ) (ins : Ins) (rd : CIRoute) (route : List CINode) (v : List ℕ) : Prop where
  eq : route = ciInsertBefore ⟨rd.route.length, ins.customer⟩ ins.before.id rd.route
  perm : route.Perm (⟨rd.route.length, ins.customer⟩ :: rd.route)
  vals : route.map (·.val) = wrap v
  custs : v.Perm (ins.customer :: rd.custs)
  cost : cost D (wrap v) = cost D rd.vals + ins.cost_delta

theorem mj_placed {D : ℕ → ℕ → ℚ} {d : ℕ → ℚ} {C L : Option ℚ} {P Q : Prop} {rd : CIRoute}
    {ins : Ins} {un : List ℕ} (h : CIRouteOk D d C L P Q rd) (hi : InsOk D d C rd.route ins)
    (hv : ciValid d C ins rd un = true) :
    (∃ route v, MjPlaced D ins rd route v) ∧ Within C C_EPS (rd.used + d ins.customer) := by
  unfold ciValid at hv
  by_cases v1 : ins.customer ∉ un
  · rw [if_pos v1] at hv; cases hv
  rw [if_neg v1] at hv
  by_cases v2 : (ciNext rd.route ins.after.id).map (·.id) ≠ some ins.before.id
  · rw [if_pos v2] at hv; cases hv
  rw [if_neg v2] at hv
  by_cases v3 : exceeds C C_EPS (rd.used + d ins.customer) = true
  · rw [if_pos v3] at hv; cases hv
  have v3' := (exceeds_iff _ _ _).1 (by simpa using v3)
  refine ⟨?_, v3'⟩
  simp only [not_not] at v1 v2
  obtain ⟨b, hb1, hb2⟩ := Option.map_eq_some_iff.1 v2
  obtain ⟨l, a, r, hr, ha⟩ := ciNext_spec hb1
  have hae : a = ins.after := node_eq h.ids (by rw [hr]; simp) hi.after ha
  have hbe : b = ins.before := node_eq h.ids (by rw [hr]; simp) hi.before hb2
  subst hae hbe
  have hids := h.ids
  have hnb : ∀ y ∈ l ++ [ins.after], y.id ≠ ins.before.id := by
    intro y hy e
    have e' : rd.route = (l ++ [ins.after]) ++ ins.before :: r := by rw [hr]; simp
    rw [e', List.map_append, List.map_cons] at hids
    exact (List.nodup_append.1 hids).2.2 _ (List.mem_map_of_mem hy) _ (by simp) e
  have hroute : ciInsertBefore ⟨rd.route.length, ins.customer⟩ ins.before.id rd.route =
      l ++ ins.after :: ⟨rd.route.length, ins.customer⟩ :: ins.before :: r := by
    conv_lhs => arg 3; rw [hr]
    have := ciInsertBefore_eq ⟨rd.route.length, ins.customer⟩ ins.before (l ++ [ins.after]) r hnb
    simpa using this
  generalize hn : (⟨rd.route.length, ins.customer⟩ : CINode) = nw at hroute
  have hperm : (l ++ ins.after :: nw :: ins.before :: r).Perm (nw :: rd.route) := by
    rw [hr]
    have := List.perm_middle (l₁ := l ++ [ins.after]) (a := nw) (l₂ := ins.before :: r)
    simpa using this
  have hvold : wrap rd.custs = (l.map (·.val) ++ [ins.after.val]) ++ (ins.before.val :: r.map (·.val)) := by
    rw [← h.shape, CIRoute.vals, hr]; simp
  obtain ⟨u1, u2, w1, w2, w3⟩ := wrap_parts (by simp) (by simp) hvold
  have hvnew : (l ++ ins.after :: nw :: ins.before :: r).map (·.val) = wrap (u1 ++ ins.customer :: u2) := by
    have : (l ++ ins.after :: nw :: ins.before :: r).map (·.val) =
        (l.map (·.val) ++ [ins.after.val]) ++ (ins.customer :: (ins.before.val :: r.map (·.val))) := by
      rw [← hn]; simp
    rw [this, w2, w3]; simp [wrap]
  have hcost : cost D (wrap (u1 ++ ins.customer :: u2)) = cost D rd.vals + ins.cost_delta := by
    rw [← hvnew, CIRoute.vals, hr, hi.delta]
    have e1 : (l ++ ins.after :: nw :: ins.before :: r).map (·.val) =
        l.map (·.val) ++ ins.after.val :: (ins.customer :: ins.before.val :: r.map (·.val)) := by
      rw [← hn]; simp
    have e2 : (l ++ ins.after :: ins.before :: r).map (·.val) =
        l.map (·.val) ++ ins.after.val :: (ins.before.val :: r.map (·.val)) := by simp
    rw [e1, e2, cost_append_cons, cost_append_cons D _ _ (ins.before.val :: _)]
    simp only [cost]
    ring
  exact ⟨_, _, ⟨by rw [hn]; exact hroute.symm, by rw [hn]; exact hperm, hvnew,
    by rw [w1]; exact List.perm_middle, hcost⟩⟩

/-- The callback of Mole & Jameson meets what is asked of one. -/
theorem mjTry_ok {D : ℕ → ℕ → ℚ} (hD : Symm D) {d : ℕ → ℚ} {C L : Option ℚ} {P Q : Prop} {mk : Bool}
    (hQ : Q → mk = false) : CbOk D d C L P Q (fun fuel => mjTry D L mk fuel) := by
  intro rd ins un h hi hv
  obtain ⟨⟨route, v, pl⟩, hcap⟩ := mj_placed h hi hv
  obtain ⟨u', t', b', ⟨F, e1⟩, e2, e3, e4, e5, e6⟩ := mjTwoOpt_spec hD v ins.cost_delta false
  simp only at e1
  have huc : u'.Perm (ins.customer :: rd.custs) := e2.trans pl.custs
  have hcost : cost D (wrap u') = rd.cost + t' := by rw [e3, pl.cost, h.cost]; ring
  have hmem : ∀ x ∈ rd.route, x ∈ route := fun x hx => pl.perm.mem_iff.2 (List.mem_cons_of_mem _ hx)
  have hlen : route.length = rd.route.length + 1 := by rw [pl.perm.length_eq]; rfl
  have hwrap : (wrap u').length = rd.route.length + 1 := by
    have : (wrap u').length = (wrap v).length := by simp [wrap, e2.length_eq]
    rw [this, ← pl.vals, List.length_map, hlen]
  by_cases t1 : mk = false ∧ t' - D 0 ins.customer - D ins.customer 0 > 0
  · refine ⟨none, ⟨F, fun fuel hf => ?_⟩, trivial⟩
    simp only [mjTry]
    rw [← pl.eq, pl.vals, e1 fuel hf]
    simp only
    rw [if_pos t1]
  by_cases t2 : exceeds L S_EPS (rd.cost + t') = true
  · refine ⟨none, ⟨F, fun fuel hf => ?_⟩, trivial⟩
    simp only [mjTry]
    rw [← pl.eq, pl.vals, e1 fuel hf]
    simp only
    rw [if_neg t1, if_pos t2]
  have t2' := (exceeds_iff _ _ _).1 (by simpa using t2)
  have hused : truthy C = true → rd.used + ins.demand_delta = demand d u' := by
    intro hC
    rw [h.used hC, hi.demand hC, demand_perm d huc, demand_cons]; ring
  have hok : P → RouteOk D d C L u' := by
    intro p
    refine ⟨?_, ?_⟩
    · by_cases hC : truthy C = true
      · rw [demand_perm d huc, demand_cons]
        rw [h.used hC] at hcap
        convert hcap using 1; ring
      · intro c hc hc0
        exact absurd (by simp [truthy, hc, hc0]) hC
    · rw [hcost]; exact t2'
  have hsep : Q → rd.cost + t' ≤ sepCost D u' := by
    intro q
    have := h.sep q
    have t1' : t' - D 0 ins.customer - D ins.customer 0 ≤ 0 := by
      by_contra hh; exact t1 ⟨hQ q, by linarith⟩
    rw [sepCost_perm D huc, sepCost_cons]
    linarith
  have hne : u' ≠ [] := by
    intro e
    rw [e] at huc
    have := huc.length_eq
    simp at this
  cases hb : b' with
  | true =>
    obtain ⟨z1, z2, z3⟩ := zipIdx_nodes (wrap u')
    set nodes := (wrap u').zipIdx.map fun p => (⟨p.2, p.1⟩ : CINode) with hnodes
    have hlen' : nodes.length = (wrap u').length := by simp [hnodes]
    have hvals : (CIRoute.mk nodes (rd.cost + t') (rd.used + ins.demand_delta) []).vals = wrap u' := z1
    have hc' := custs_of_vals hvals
    refine ⟨some (⟨nodes, rd.cost + t', rd.used + ins.demand_delta, []⟩, nodes.zip nodes.tail),
      ⟨F, fun fuel hf => ?_⟩, ⟨z2, fun x hx => ?_, by rw [hc']; exact hvals, by rw [hc']; exact hne, ?_,
        fun hC => by rw [hc']; exact hused hC, fun p => by rw [hc']; exact hok p, fun q => by rw [hc']; exact hsep q,
        by simp⟩, by rw [hc']; exact huc, ?_⟩
    · simp only [mjTry]
      rw [← pl.eq, pl.vals, e1 fuel hf]
      simp only
      rw [if_neg t1, if_neg t2, hb, if_pos rfl]
    · show x.id < nodes.length
      rw [hlen']; exact z3 x hx
    · rw [hvals, hcost]
    · rintro ⟨a, b⟩ hp
      have := List.of_mem_zip hp
      exact ⟨this.1, List.mem_of_mem_tail this.2⟩
  | false =>
    obtain ⟨rfl, e7⟩ := e6 hb
    have hvals : (CIRoute.mk route (rd.cost + t') (rd.used + ins.demand_delta) rd.heap).vals = wrap u' := pl.vals
    have hc' := custs_of_vals hvals
    refine ⟨some (⟨route, rd.cost + t', rd.used + ins.demand_delta, rd.heap⟩,
        [(ins.after, ⟨rd.route.length, ins.customer⟩), (⟨rd.route.length, ins.customer⟩, ins.before)]),
      ⟨F, fun fuel hf => ?_⟩, ⟨?_, fun x hx => ?_, by rw [hc']; exact hvals, by rw [hc']; exact hne, ?_,
        fun hC => by rw [hc']; exact hused hC, fun p => by rw [hc']; exact hok p, fun q => by rw [hc']; exact hsep q,
        ?_⟩, by rw [hc']; exact huc, ?_⟩
    · simp only [mjTry]
      rw [← pl.eq, pl.vals, e1 fuel hf]
      simp only
      rw [if_neg t1, if_neg t2, hb, if_neg (by simp)]
    · show (route.map (·.id)).Nodup
      rw [(pl.perm.map _).nodup_iff, List.map_cons, List.nodup_cons]
      refine ⟨fun hx => ?_, h.ids⟩
      obtain ⟨y, hy, e⟩ := List.mem_map.1 hx
      have := h.idlt y hy
      simp only at e
      omega
    · show x.id < route.length
      rw [hlen]
      have hx' := pl.perm.mem_iff.1 hx
      rcases List.mem_cons.1 hx' with rfl | hx'
      · simp
      · have := h.idlt x hx'; omega
    · rw [hvals, hcost]
    · intro x hx
      obtain ⟨g1, g2, g3, g4⟩ := h.heap x hx
      exact ⟨hmem _ g1, hmem _ g2, g3, g4⟩
    · have hnw : (⟨rd.route.length, ins.customer⟩ : CINode) ∈ route := pl.perm.mem_iff.2 (by simp)
      intro e he
      simp only [List.mem_cons, List.not_mem_nil, or_false] at he
      rcases he with rfl | rfl
      · exact ⟨hmem _ hi.after, hnw⟩
      · exact ⟨hnw, hmem _ hi.before⟩

end Verif
