import Verif.Lemmas.RfcsTable
import Verif.Lemmas.Lr3opt
import Verif.Props.Sweep
import Mathlib.Data.List.MinMax
import Mathlib.Data.List.Permutation

/-! # C33: the partition of a giant tour -/

namespace Verif

open Spec

theorem tour_flatMap : ∀ rs : List (List ℕ), tour rs = [0] ++ rs.flatMap fun r => r ++ [0]
  | [] => rfl
  | r :: rs => by
    rw [tour, tour_flatMap rs]
    simp

theorem GiantTour_len {g tour : List ℕ} (h : GiantTour g tour) (hg : g.Nodup) (h2 : 2 ≤ g.length) :
    rfLen tour = g.length ∧ ∃ rest, tour = g ++ rest := by
  obtain ⟨a, t, b, rfl⟩ : ∃ a t b, g = a :: (t ++ [b]) := by
    cases g with
    | nil => simp at h2
    | cons a t =>
      have ht : t ≠ [] := by rintro rfl; simp at h2
      exact ⟨a, t.dropLast, t.getLast ht, by rw [List.dropLast_append_getLast ht]⟩
  have hab : a ≠ b := by
    rintro rfl
    simp at hg
  rcases h with rfl | rfl
  · refine ⟨?_, [], by simp⟩
    unfold rfLen
    rw [if_neg]
    rw [← List.cons_append, List.getLast?_concat]
    simpa using hab
  · refine ⟨?_, _, rfl⟩
    unfold rfLen
    have e : a :: (t ++ [b]) ++ (a :: (t ++ [b])).head?.toList = (a :: (t ++ [b])) ++ [a] := rfl
    rw [e, List.getLast?_concat]
    simp

/-- The partition: complete, the limits kept, and the cheapest one of those with two or more routes. -/
theorem C33_partial {N : ℕ} {D : ℕ → ℕ → ℚ} {d : ℕ → ℚ} {C L : Option ℚ} {const : ℚ} {g tour' : List ℕ}
    {popt ropt : Router} (hN : 3 ≤ N) (hg : g.Perm (List.range' 1 (N - 1))) (ht : GiantTour g tour')
    (hp : TspRoutine D popt) (hr : RouteImprover D ropt) (hm : GrowsLonger popt) (hd : ∀ n, 0 ≤ d n)
    (hc : 0 ≤ const) (hs : Serviceable N D d C L) :
    ∃ rs us, (∀ fuel, N ≤ fuel → rf_partition fuel N d C L tour' const popt ropt = .ok (some (tour rs))) ∧
      Solves N D d C L (tour rs) ∧ Feasible D d C L (tour rs) ∧
      Segments g us ∧ 2 ≤ us.length ∧ (∀ u ∈ us, SegmentOk d C L popt u) ∧
      List.Forall₂ (fun r u => r.Perm u ∧ cost D (wrap r) ≤ (grown popt u).2) rs us ∧
      ∀ us', Segments g us' → 2 ≤ us'.length → (∀ u ∈ us', SegmentOk d C L popt u) →
        segmentsCost popt const us ≤ segmentsCost popt const us' := by
  have hlen : g.length = N - 1 := by rw [hg.length_eq]; simp
  have hgn0 : (0 :: g).Nodup := by
    refine (hg.cons 0).nodup_iff.2 ?_
    have : (0 :: List.range' 1 (N - 1)) = List.range' 0 (N - 1 + 1) := by rw [List.range'_succ]
    rw [this]; exact (List.pairwise_lt_range' (s := 0) (n := N - 1 + 1) (step := 1)).imp fun h => ne_of_lt h
  have hring := segE_ring (d := d) (C := C) (L := L) hgn0 (by omega) hm hc
  obtain ⟨hrl, rest, hrest⟩ := GiantTour_len ht (List.nodup_cons.1 hgn0).2 (by omega)
  obtain ⟨t, ht1, ht2⟩ := rfRows_ok (d := d) (C := C) (L := L) (const := const) (rest := rest) hp hgn0 g.length 0
    ⟨fun _ _ => ⊤, fun _ _ => 0⟩ (by omega) (fun _ _ _ => rfl) (fun x b h => by omega)
  -- the customers can be served one by one
  have hcust : ∀ x ∈ g, 1 ≤ x ∧ x < N := by
    intro x hx
    have := hg.mem_iff.1 hx
    rw [List.mem_range'_1] at this
    omega
  have hsing : ∀ x ∈ g, SegmentOk d C L popt [x] := by
    intro x hx
    have h1 := hcust x hx
    have h2 := hs x h1.1 h1.2
    refine ⟨h2.1, ?_⟩
    obtain ⟨w, hw1, hw2⟩ := grown_route hp [x] (by simp; omega) (by simp)
    rw [hw2, List.perm_singleton.1 hw1]
    exact h2.2
  -- any partition gives a split of the ring
  have hconv : ∀ us', Segments g us' → 2 ≤ us'.length → (∀ u ∈ us', SegmentOk d C L popt u) →
      ∃ i < g.length, ∃ ls : List ℕ, (∀ l ∈ ls, 1 ≤ l) ∧ ls.sum = g.length ∧
        ringCost (segE g d C L const popt) i ls = ((segmentsCost popt const us' : ℚ) : WithTop ℚ) := by
    rintro us' ⟨h1, k, hk⟩ h2 h3
    have hk' : us'.flatten = seg g ((k + g.length - 1) % g.length) g.length := by
      rw [seg_mod, seg_full, hk]
      rw [show k + g.length - 1 + 1 = k + g.length by omega, ← List.rotate_mod g (k + g.length),
        Nat.add_mod_right, List.rotate_mod]
    obtain ⟨e1, e2⟩ := segs_of_flatten us' _ _ hk'
    refine ⟨(k + g.length - 1) % g.length, Nat.mod_lt _ (by omega), us'.map List.length, ?_, e2, ?_⟩
    · intro l hl
      obtain ⟨u, hu, rfl⟩ := List.mem_map.1 hl
      have : u ≠ [] := fun e => h1 (e ▸ hu)
      exact List.length_pos_iff.2 this
    · have hsplit : ∀ l ∈ us'.map List.length, l < g.length := by
        intro l hl
        obtain ⟨u, hu, rfl⟩ := List.mem_map.1 hl
        obtain ⟨x, y, hxy⟩ := List.append_of_mem hu
        have hpos : ∀ v ∈ us', 1 ≤ v.length := fun v hv => List.length_pos_iff.2 fun e => h1 (e ▸ hv)
        rw [hxy] at e2 h2
        simp only [List.map_append, List.map_cons, List.sum_append, List.sum_cons] at e2
        have hother : 1 ≤ (x.map List.length).sum + (y.map List.length).sum := by
          cases x with
          | nil =>
            cases y with
            | nil => simp at h2
            | cons v y =>
              have := hpos v (by rw [hxy]; simp)
              simp; omega
          | cons v x =>
            have := hpos v (by rw [hxy]; simp)
            simp; omega
        omega
      have := ringCost_of_segments (d := d) (C := C) (L := L) (const := const) hgn0 hm hd
        (us'.map List.length) _ hsplit (by rw [← e1]; exact h3)
      rw [this, ← e1]
  have hsingles : Segments g (g.map fun x => [x]) := by
    refine ⟨by simp, 0, ?_⟩
    rw [List.rotate_zero, List.flatten_eq_flatMap]
    simp [List.flatMap_map]
  obtain ⟨i0, hi0, l0, hl01, hl02, hl03⟩ := hconv _ hsingles (by rw [List.length_map]; omega) (by
    intro u hu
    obtain ⟨x, hx, rfl⟩ := List.mem_map.1 hu
    exact hsing x hx)
  obtain ⟨hb, ls, f1, f2, f3, f4, f5⟩ := fw_best hring (by omega : g.length ≤ N) ht2 hi0 hl01 hl02
    (by rw [hl03]; exact WithTop.coe_lt_top _)
  generalize hbdef : rfArgmin N (fun i => (fw N t).dist i i) = b at hb f1 f4 f5
  obtain ⟨c1, c2, c3⟩ := ringCost_segs ls b f4
  have hlsl : ls.length ≤ N := by
    have : ls.length ≤ ls.sum := List.length_le_sum_of_one_le ls f2
    omega
  obtain ⟨rs, w1, w2⟩ := rfWalk_ok (rest := rest) hp hr hgn0 ls b hb f1 (fun l hl => ⟨f2 l hl, c2 l hl⟩)
  have hrun : ∀ fuel, N ≤ fuel → rf_partition fuel N d C L tour' const popt ropt = .ok (some (tour rs)) := by
    intro fuel hf
    unfold rf_partition
    simp only [hrl]
    rw [hrest]
    unfold pyRange
    rw [Nat.sub_zero, ht1]
    simp only
    rw [hbdef, w2 fuel [0] (by omega), tour_flatMap]
  have hfl : (segs g b ls).flatten = g.rotate (b + 1) := by rw [segs_flatten, f3, seg_full]
  have hpf : ∀ rs us : List (List ℕ), List.Forall₂ (fun r s => r.Perm s ∧ cost D (wrap r) ≤ (grown popt s).2) rs us →
      rs.flatten.Perm us.flatten := by
    intro rs us h
    induction h with
    | nil => exact List.Perm.refl _
    | cons h _ ih => rw [List.flatten_cons, List.flatten_cons]; exact h.1.append ih
  have hperm : rs.flatten.Perm (List.range' 1 (N - 1)) := by
    refine (hpf _ _ w1).trans ?_
    rw [hfl]
    exact (List.rotate_perm g _).trans hg
  have hne : ∀ (ls : List ℕ) i, (∀ l ∈ ls, 1 ≤ l) → [] ∉ segs g i ls := by
    intro ls
    induction ls with
    | nil => intro i _; simp [segs]
    | cons l t ih =>
      intro i h
      rw [segs, List.mem_cons, not_or]
      refine ⟨?_, ih _ fun x hx => h x (List.mem_cons_of_mem _ hx)⟩
      intro e
      have := congrArg List.length e
      have := h l List.mem_cons_self
      simp at *
      omega
  have hsok := c3 f2
  have hrel : ∀ r ∈ rs, r ≠ [] ∧ RouteOk D d C L r := by
    intro r hr
    obtain ⟨k, hk, rfl⟩ := List.mem_iff_getElem.1 hr
    obtain ⟨h1, h2⟩ := List.forall₂_iff_get.1 w1
    have hk' : k < (segs g b ls).length := by omega
    have h3 := h2 k hk hk'
    have hmem : (segs g b ls)[k] ∈ segs g b ls := List.getElem_mem hk'
    simp only [List.get_eq_getElem] at h3
    refine ⟨?_, ?_, within_mono (hsok _ hmem).2 h3.2⟩
    · intro e
      rw [e] at h3
      have : (segs g b ls)[k] = [] := List.nil_perm.1 h3.1
      rw [this] at hmem
      exact hne ls b f2 hmem
    · rw [demand_perm d h3.1]; exact (hsok _ hmem).1
  obtain ⟨s1, s2, _⟩ := solves_tour (D := D) (d := d) (C := C) (L := L) hperm (fun h => (hrel _ h).1 rfl)
    (fun r hr => (hrel r hr).2)
  refine ⟨rs, segs g b ls, hrun, s1, s2, ⟨hne ls b f2, b + 1, hfl⟩, ?_, hsok, w1, ?_⟩
  · rw [segs_length]
    by_contra hcon
    have : ls.length = 0 ∨ ls.length = 1 := by omega
    rcases this with h | h
    · rw [List.length_eq_zero_iff.1 h] at f3; simp at f3; omega
    · obtain ⟨l, rfl⟩ := List.length_eq_one_iff.1 h
      have := c2 l (by simp)
      simp at f3
      omega
  · intro us' h1 h2 h3
    obtain ⟨i, hi, ls', e1, e2, e3⟩ := hconv us' h1 h2 h3
    have := f5 i hi ls' e1 e2
    rw [c1, e3] at this
    exact_mod_cast this

/-! ## Routines that fit -/

theorem cost_wrap_drop {D : ℕ → ℕ → ℚ} (htri : ∀ a b c, D a c ≤ D a b + D b c) (x y : List ℕ) (v : ℕ) :
    cost D (wrap (x ++ y)) ≤ cost D (wrap (x ++ v :: y)) := by
  have e1 : wrap (x ++ y) = (0 :: x) ++ (y ++ [0]) := by simp [wrap]
  have e2 : wrap (x ++ v :: y) = (0 :: x) ++ (v :: (y ++ [0])) := by simp [wrap]
  rw [e1, e2]
  obtain ⟨p, a, hpa⟩ : ∃ p a, 0 :: x = p ++ [a] :=
    ⟨(0 :: x).dropLast, (0 :: x).getLast (by simp), (List.dropLast_append_getLast (by simp)).symm⟩
  obtain ⟨b, q, hbq⟩ : ∃ b q, y ++ [0] = b :: q := by
    cases y with
    | nil => exact ⟨0, [], rfl⟩
    | cons b q => exact ⟨b, q ++ [0], rfl⟩
  rw [hpa, hbq]
  have h1 : p ++ [a] ++ b :: q = p ++ a :: (b :: q) := by simp
  have h2 : p ++ [a] ++ v :: b :: q = p ++ a :: (v :: b :: q) := by simp
  rw [h1, h2, cost_append_cons (l := p) (r := b :: q), cost_append_cons (l := p) (r := v :: b :: q)]
  have := htri a v b
  simp only [cost]
  linarith

/-- With the triangle inequality an exact routine fits. -/
theorem growsLonger_exact {D : ℕ → ℕ → ℚ} {popt : Router} (hp : TspRoutine D popt) (he : Exact D popt)
    (hnn : ∀ a b, 0 ≤ D a b) (htri : ∀ a b c, D a c ≤ D a b + D b c) :
    GrowsLonger popt ∧ ∀ u, u ≠ [] → (0 :: u).Nodup → ∀ w, w.Perm u → (grown popt u).2 ≤ cost D (wrap w) := by
  have key : ∀ u, u ≠ [] → (0 :: u).Nodup → ∀ w, w.Perm u → (grown popt u).2 ≤ cost D (wrap w) := by
    intro u hu hn w hw
    obtain ⟨u', v, rfl⟩ : ∃ u' v, u = u' ++ [v] := ⟨u.dropLast, u.getLast hu, (List.dropLast_append_getLast hu).symm⟩
    have hroute : ∃ x, x.Perm u' ∧ (grown popt u').1.dropLast = 0 :: x := by
      by_cases hu' : u' = []
      · subst hu'; exact ⟨[], List.Perm.refl _, rfl⟩
      · obtain ⟨x, h1, h2⟩ := grown_route hp u' (hn.sublist ((List.sublist_append_left _ _).cons_cons 0)) hu'
        exact ⟨x, h1, by rw [h2]; exact List.dropLast_concat (l₁ := 0 :: x)⟩
    obtain ⟨x, h1, h2⟩ := hroute
    rw [grown_concat, h2]
    exact he (x ++ [v]) w (hw.trans (h1.append_right [v]).symm)
  refine ⟨?_, key⟩
  intro u v hn
  obtain ⟨w, hw1, hw2⟩ := grown_route hp (u ++ [v]) hn (by simp)
  rw [hw2]
  by_cases hu : u = []
  · subst hu
    exact cost_nonneg hnn _
  · obtain ⟨x, y, rfl⟩ := List.append_of_mem (hw1.mem_iff.2 (by simp : v ∈ u ++ [v]))
    refine le_trans (key u hu (hn.sublist ((List.sublist_append_left _ _).cons_cons 0)) (x ++ y) ?_)
      (cost_wrap_drop htri x y v)
    have h1 : (v :: (x ++ y)).Perm (u ++ [v]) := List.perm_middle.symm.trans hw1
    exact (h1.trans (List.perm_append_singleton v u)).cons_inv

/-- The routine that drives the nodes in the given order fits if the triangle inequality holds. -/
theorem growsLonger_swept {D : ℕ → ℕ → ℚ} (hnn : ∀ a b, 0 ≤ D a b) (htri : ∀ a b c, D a c ≤ D a b + D b c) :
    GrowsLonger (sweptOrder D) ∧ ∀ u, u ≠ [] → grown (sweptOrder D) u = (wrap u, cost D (wrap u)) := by
  have key : ∀ u, u ≠ [] → grown (sweptOrder D) u = (wrap u, cost D (wrap u)) := by
    intro u hu
    induction u using List.reverseRecOn with
    | nil => exact absurd rfl hu
    | append_singleton u v ih =>
      have h2 : (grown (sweptOrder D) u).1.dropLast = 0 :: u := by
        by_cases hu' : u = []
        · subst hu'; rfl
        · rw [ih hu']; exact List.dropLast_concat (l₁ := 0 :: u)
      rw [grown_concat, h2]
      unfold sweptOrder
      rw [objf_eq_cost]
      rfl
  refine ⟨?_, key⟩
  intro u v _
  rw [key (u ++ [v]) (by simp)]
  by_cases hu : u = []
  · subst hu; exact cost_nonneg hnn _
  · rw [key u hu]
    have := cost_wrap_drop htri u [] v
    rwa [List.append_nil] at this

/-- With an exact routine and the triangle inequality the solution is the cheapest one of all those that
serve consecutive customers of the giant tour by each of their two or more routes. -/
theorem C33_exact_partial {N : ℕ} {D : ℕ → ℕ → ℚ} {d : ℕ → ℚ} {C L : Option ℚ} {const : ℚ} {g tour' : List ℕ}
    {popt ropt : Router} (hN : 3 ≤ N) (hg : g.Perm (List.range' 1 (N - 1))) (ht : GiantTour g tour')
    (hnn : ∀ a b, 0 ≤ D a b) (htri : ∀ a b c, D a c ≤ D a b + D b c)
    (hp : TspRoutine D popt) (he : Exact D popt) (hr : RouteImprover D ropt) (hd : ∀ n, 0 ≤ d n)
    (hc : 0 ≤ const) (hs : Serviceable N D d C L) :
    ∃ rs, (∀ fuel, N ≤ fuel → rf_partition fuel N d C L tour' const popt ropt = .ok (some (tour rs))) ∧
      Solves N D d C L (tour rs) ∧ Feasible D d C L (tour rs) ∧
      (∃ us, Segments g us ∧ 2 ≤ us.length ∧ List.Forall₂ List.Perm rs us) ∧
      ∀ rs' us', Segments g us' → 2 ≤ us'.length → List.Forall₂ List.Perm rs' us' →
        (∀ r ∈ rs', RouteOk D d C L r) →
        cost D (tour rs) + const * rs.length ≤ cost D (tour rs') + const * rs'.length := by
  obtain ⟨hm, hbest⟩ := growsLonger_exact hp he hnn htri
  obtain ⟨rs, us, h1, h2, h3, h4, h5, h6, h7, h8⟩ := C33_partial hN hg ht hp hr hm hd hc hs
  refine ⟨rs, h1, h2, h3, ⟨us, h4, h5, h7.imp fun _ _ h => h.1⟩, ?_⟩
  intro rs' us' s1 s2 s3 s4
  have hgn0 : (0 :: g).Nodup := by
    refine (hg.cons 0).nodup_iff.2 ?_
    have : (0 :: List.range' 1 (N - 1)) = List.range' 0 (N - 1 + 1) := by rw [List.range'_succ]
    rw [this]; exact (List.pairwise_lt_range' (s := 0) (n := N - 1 + 1) (step := 1)).imp fun h => ne_of_lt h
  have hnd : ∀ u ∈ us', u ≠ [] ∧ (0 :: u).Nodup := by
    intro u hu
    refine ⟨fun e => s1.1 (e ▸ hu), ?_⟩
    obtain ⟨k, hk⟩ := s1.2
    have hsub : u.Sublist us'.flatten := List.sublist_flatten_of_mem hu
    rw [hk] at hsub
    have : (0 :: g.rotate k).Nodup := ((List.rotate_perm g k).cons 0).nodup_iff.2 hgn0
    exact this.sublist (hsub.cons_cons 0)
  have lower : ∀ rs us : List (List ℕ),
      List.Forall₂ (fun r u => r.Perm u ∧ cost D (wrap r) ≤ (grown popt u).2) rs us →
      cost D (tour rs) + const * rs.length ≤ segmentsCost popt const us := by
    intro rs us h
    rw [cost_tour_sum]
    induction h with
    | nil => simp [segmentsCost]
    | cons h _ ih =>
      simp only [segmentsCost, List.map_cons, List.sum_cons, List.length_cons, Nat.cast_add, Nat.cast_one] at ih ⊢
      have := h.2
      linarith
  have upper : ∀ rs us : List (List ℕ), List.Forall₂ List.Perm rs us → (∀ u ∈ us, u ≠ [] ∧ (0 :: u).Nodup) →
      (∀ r ∈ rs, RouteOk D d C L r) →
      segmentsCost popt const us ≤ cost D (tour rs) + const * rs.length ∧ ∀ u ∈ us, SegmentOk d C L popt u := by
    intro rs us h hu hok
    rw [cost_tour_sum]
    induction h with
    | nil => simp [segmentsCost]
    | @cons r u rs us h _ ih =>
      obtain ⟨i1, i2⟩ := ih (fun v hv => hu v (List.mem_cons_of_mem _ hv)) (fun v hv => hok v (List.mem_cons_of_mem _ hv))
      have h0 := hu u List.mem_cons_self
      have hb := hbest u h0.1 h0.2 r h
      have ho := hok r List.mem_cons_self
      constructor
      · simp only [segmentsCost, List.map_cons, List.sum_cons, List.length_cons, Nat.cast_add, Nat.cast_one] at i1 ⊢
        linarith
      · intro v hv
        rcases List.mem_cons.1 hv with rfl | hv
        · exact ⟨by rw [← demand_perm d h]; exact ho.1, within_mono ho.2 hb⟩
        · exact i2 v hv
  obtain ⟨u1, u2⟩ := upper rs' us' s3 hnd s4
  exact le_trans (lower rs us h7) (le_trans (h8 us' s1 s2 u2) u1)

/-- The whole heuristic, with a routine that makes a closed tour of the customers. -/
theorem C33_init_partial {N : ℕ} {D : ℕ → ℕ → ℚ} {d : ℕ → ℚ} {C L : Option ℚ} {minimize_K : Bool}
    {gen popt ropt : Router} (hN : 2 ≤ N)
    (hgen : ∃ g, g.Perm (List.range' 1 (N - 1)) ∧ GiantTour g (gen (List.range' 1 (N - 1))).1 ∧
      0 ≤ (gen (List.range' 1 (N - 1))).2)
    (hp : TspRoutine D popt) (hr : RouteImprover D ropt) (hm : GrowsLonger popt) (hd : ∀ n, 0 ≤ d n)
    (hs : Serviceable N D d C L) :
    ∃ sol, (∀ fuel, N ≤ fuel → route_first_cluster_second_init fuel N d C L minimize_K gen popt ropt = .ok (some sol)) ∧
      Solves N D d C L sol ∧ Feasible D d C L sol := by
  by_cases h2 : N = 2
  · subst h2
    refine ⟨tour [[1]], fun _ _ => rfl, ?_⟩
    have := solves_tour (N := 2) (D := D) (d := d) (C := C) (L := L) (us := [[1]]) (by decide) (by simp)
      (by intro u hu; rw [List.mem_singleton] at hu; subst hu; exact hs 1 (by omega) (by omega))
    exact ⟨this.1, this.2.1⟩
  · obtain ⟨g, g1, g2, g3⟩ := hgen
    have hc : 0 ≤ if minimize_K = true then (gen (List.range' 1 (N - 1))).2 else 0 := by
      split
      · exact g3
      · exact le_rfl
    obtain ⟨rs, us, h1, h3, h4, _⟩ := C33_partial (by omega) g1 g2 hp hr hm hd hc hs
    refine ⟨tour rs, fun fuel hf => ?_, h3, h4⟩
    rw [← h1 fuel hf]
    unfold route_first_cluster_second_init pyRange
    rw [if_neg (by omega)]

/-! ## What is not so -/

/-- Three nodes: the two customers are far from the depot and near each other. -/
def rfFarD (i j : ℕ) : ℚ := if i = j then 0 else if i = 0 ∨ j = 0 then 10 else 1

/-- A partition to a single route is never found, although it keeps the limits and costs the least. -/
theorem C33_false_single :
    rf_partition 3 3 (fun _ => 0) (some 1) none [1, 2, 1] 0 (sweptOrder rfFarD) (fun r => (r, cost rfFarD r)) =
      .ok (some [0, 2, 0, 1, 0]) ∧
    Solves 3 rfFarD (fun _ => 0) (some 1) none [0, 1, 2, 0] ∧ Feasible rfFarD (fun _ => 0) (some 1) none [0, 1, 2, 0] ∧
    cost rfFarD [0, 1, 2, 0] = 21 ∧ cost rfFarD [0, 2, 0, 1, 0] = 40 := by
  have := solves_tour (N := 3) (D := rfFarD) (d := fun _ => 0) (C := some 1) (L := none) (us := [[1, 2]]) (by decide)
    (by simp) (by
      intro u hu
      rw [List.mem_singleton] at hu
      subst hu
      refine ⟨?_, fun c hc => by simp at hc⟩
      intro c hc _
      simp only [Option.some.injEq] at hc
      subst hc
      decide +kernel)
  exact ⟨by decide +kernel, this.1, this.2.1, by decide +kernel, by decide +kernel⟩

/-- Seven nodes: the depot is near the customers 1, 3 and 5. -/
def rfTwiceD (i j : ℕ) : ℚ :=
  if i = j then 0 else if i = 0 then (if j % 2 = 1 then 1 else 100) else if j = 0 then (if i % 2 = 1 then 1 else 100)
  else 1

/-- A routine that is good for three sets of four customers only. -/
def rfTwiceOrder (t : List ℕ) : List ℕ :=
  if t.isPerm [1, 2, 3, 4] then [1, 2, 4, 3]
  else if t.isPerm [5, 6, 1, 2] then [5, 6, 2, 1]
  else if t.isPerm [3, 4, 5, 6] then [3, 4, 6, 5]
  else t.filter (· % 2 = 0) ++ t.filter fun x => ! decide (x % 2 = 0)

def rfTwiceTsp (r : List ℕ) : List ℕ × ℚ :=
  (wrap (rfTwiceOrder r.tail), cost rfTwiceD (wrap (rfTwiceOrder r.tail)))

/-- If adding a node may make a route shorter, the routes found may go around the giant tour twice: here
each customer is served by two routes. -/
theorem C33_false_twice : TspRoutine rfTwiceD rfTwiceTsp ∧ Serviceable 7 rfTwiceD (fun _ => 1) (some 5) none ∧
    rf_partition 7 7 (fun _ => 1) (some 5) none [1, 2, 3, 4, 5, 6, 1] 0 rfTwiceTsp (fun r => (r, cost rfTwiceD r)) =
      .ok (some [0, 5, 6, 2, 1, 0, 3, 4, 6, 5, 0, 1, 2, 4, 3, 0]) := by
  refine ⟨?_, ?_, by decide +kernel⟩
  · intro t _ _
    refine ⟨rfTwiceOrder t, ?_, rfl⟩
    unfold rfTwiceOrder
    by_cases h1 : t.isPerm [1, 2, 3, 4] = true
    · rw [if_pos h1]; exact (by decide : [1, 2, 4, 3].Perm [1, 2, 3, 4]).trans (List.isPerm_iff.1 h1).symm
    rw [if_neg h1]
    by_cases h2 : t.isPerm [5, 6, 1, 2] = true
    · rw [if_pos h2]; exact (by decide : [5, 6, 2, 1].Perm [5, 6, 1, 2]).trans (List.isPerm_iff.1 h2).symm
    rw [if_neg h2]
    by_cases h3 : t.isPerm [3, 4, 5, 6] = true
    · rw [if_pos h3]; exact (by decide : [3, 4, 6, 5].Perm [3, 4, 5, 6]).trans (List.isPerm_iff.1 h3).symm
    rw [if_neg h3]
    exact List.filter_append_perm _ t
  · intro n _ _
    refine ⟨?_, fun c hc => by simp at hc⟩
    intro c hc _
    simp only [Option.some.injEq] at hc
    subst hc
    norm_num [demand, C_EPS]

/-! ## A case -/

/-- Five nodes on a line, the depot in the middle. -/
def rfLineX (i : ℕ) : ℚ := [0, 1, 2, -2, -1].getD i 7

def rfLineD (i j : ℕ) : ℚ := if rfLineX i ≤ rfLineX j then rfLineX j - rfLineX i else rfLineX i - rfLineX j

theorem rfLineD_eq (i j : ℕ) : rfLineD i j = |rfLineX i - rfLineX j| := by
  unfold rfLineD
  split
  · rw [abs_of_nonpos (by linarith)]; ring
  · rw [abs_of_nonneg (by linarith)]

theorem rfIdentity (D : ℕ → ℕ → ℚ) : RouteImprover D fun r => (r, cost D r) :=
  fun w _ _ => ⟨w, List.Perm.refl w, rfl, le_rfl⟩

/-- The hypotheses of the theorems hold for it, and the two routes found are the best ones. -/
example : (∃ sol, (∀ fuel, 5 ≤ fuel → route_first_cluster_second_init fuel 5 (fun _ => 1) (some 2) (some 4) false
      (fun t => (t ++ t.head?.toList, 8)) (sweptOrder rfLineD) (fun r => (r, cost rfLineD r)) = .ok (some sol)) ∧
      Solves 5 rfLineD (fun _ => 1) (some 2) (some 4) sol ∧ Feasible rfLineD (fun _ => 1) (some 2) (some 4) sol) ∧
    route_first_cluster_second_init 5 5 (fun _ => 1) (some 2) (some 4) false
      (fun t => (t ++ t.head?.toList, 8)) (sweptOrder rfLineD) (fun r => (r, cost rfLineD r)) =
      .ok (some [0, 3, 4, 0, 1, 2, 0]) := by
  refine ⟨?_, by decide +kernel⟩
  have hnn : ∀ a b, 0 ≤ rfLineD a b := fun a b => by rw [rfLineD_eq]; exact abs_nonneg _
  have htri : ∀ a b c, rfLineD a c ≤ rfLineD a b + rfLineD b c := fun a b c => by
    rw [rfLineD_eq, rfLineD_eq, rfLineD_eq]; exact abs_sub_le _ _ _
  refine C33_init_partial (by omega) ⟨[1, 2, 3, 4], by decide, .inr rfl, by norm_num⟩ (sweptOrder_ok rfLineD)
    (rfIdentity rfLineD) (growsLonger_swept hnn htri).1 (fun _ => by norm_num) ?_
  intro n h1 h2
  have : n = 1 ∨ n = 2 ∨ n = 3 ∨ n = 4 := by omega
  rcases this with rfl | rfl | rfl | rfl <;>
    exact ⟨fun c hc _ => by simp only [Option.some.injEq] at hc; subst hc; decide +kernel,
      fun c hc _ => by simp only [Option.some.injEq] at hc; subst hc; decide +kernel⟩

/-- A routine that tries all the orders. -/
def rfAllOrders (D : ℕ → ℕ → ℚ) (r : List ℕ) : List ℕ × ℚ :=
  match (r.tail.permutations.map fun u => (wrap u, cost D (wrap u))).argmin Prod.snd with
  | some b => b
  | none => ([], 0)

theorem rfAllOrders_ok (D : ℕ → ℕ → ℚ) : TspRoutine D (rfAllOrders D) ∧ Exact D (rfAllOrders D) := by
  have key : ∀ t : List ℕ, ∃ u, u.Perm t ∧ rfAllOrders D (0 :: t) = (wrap u, cost D (wrap u)) ∧
      ∀ w, w.Perm t → cost D (wrap u) ≤ cost D (wrap w) := by
    intro t
    unfold rfAllOrders
    simp only [List.tail_cons]
    rcases Option.eq_none_or_eq_some
      ((t.permutations.map fun u => (wrap u, cost D (wrap u))).argmin Prod.snd) with h | ⟨b, h⟩
    · rw [List.argmin_eq_none] at h
      have := List.mem_map_of_mem (f := fun u => (wrap u, cost D (wrap u))) (List.mem_permutations.2 (List.Perm.refl t))
      rw [h] at this
      exact absurd this List.not_mem_nil
    · obtain ⟨u, hu, rfl⟩ := List.mem_map.1 (List.argmin_mem h)
      rw [h]
      refine ⟨u, List.mem_permutations.1 hu, rfl, fun w hw => ?_⟩
      exact List.le_of_mem_argmin (f := Prod.snd) (List.mem_map_of_mem (List.mem_permutations.2 hw)) h
  constructor
  · intro t _ _
    obtain ⟨u, h1, h2, _⟩ := key t
    exact ⟨u, h1, h2⟩
  · intro t w hw
    obtain ⟨u, _, h2, h3⟩ := key t
    rw [h2]
    exact h3 w hw

/-- The hypotheses of the optimality theorem hold for the line with this routine. -/
example : ∃ rs, (∀ fuel, 5 ≤ fuel → rf_partition fuel 5 (fun _ => 1) (some 2) (some 4) [1, 3, 2, 4] 8
        (rfAllOrders rfLineD) (fun r => (r, cost rfLineD r)) = .ok (some (tour rs))) ∧
      Solves 5 rfLineD (fun _ => 1) (some 2) (some 4) (tour rs) ∧
      cost rfLineD (tour rs) + 8 * rs.length ≤ 8 + 8 * 4 - 4 + 8 := by
  have hnn : ∀ a b, 0 ≤ rfLineD a b := fun a b => by rw [rfLineD_eq]; exact abs_nonneg _
  have htri : ∀ a b c, rfLineD a c ≤ rfLineD a b + rfLineD b c := fun a b c => by
    rw [rfLineD_eq, rfLineD_eq, rfLineD_eq]; exact abs_sub_le _ _ _
  have hser : Serviceable 5 rfLineD (fun _ => 1) (some 2) (some 4) := by
    intro n h1 h2
    have : n = 1 ∨ n = 2 ∨ n = 3 ∨ n = 4 := by omega
    rcases this with rfl | rfl | rfl | rfl <;>
      exact ⟨fun c hc _ => by simp only [Option.some.injEq] at hc; subst hc; decide +kernel,
        fun c hc _ => by simp only [Option.some.injEq] at hc; subst hc; decide +kernel⟩
  obtain ⟨rs, h1, h2, _, _, h5⟩ := C33_exact_partial (D := rfLineD) (const := 8) (g := [1, 3, 2, 4]) (by omega)
    (by decide) (.inl rfl) hnn htri (rfAllOrders_ok rfLineD).1 (rfAllOrders_ok rfLineD).2 (rfIdentity rfLineD)
    (fun _ => by norm_num) (by norm_num) hser
  refine ⟨rs, h1, h2, ?_⟩
  have := h5 [[1], [3], [2], [4]] [[1], [3], [2], [4]] ⟨by simp, 0, rfl⟩ (by simp)
    (List.forall₂_same.2 fun _ _ => List.Perm.refl _) (by
      intro r hr
      simp only [List.mem_cons, List.not_mem_nil, or_false] at hr
      rcases hr with rfl | rfl | rfl | rfl
      · exact hser 1 (by omega) (by omega)
      · exact hser 3 (by omega) (by omega)
      · exact hser 2 (by omega) (by omega)
      · exact hser 4 (by omega) (by omega))
  have hc : cost rfLineD (tour [[1], [3], [2], [4]]) = 12 := by decide +kernel
  rw [hc] at this
  norm_num at this ⊢
  linarith

end Verif
