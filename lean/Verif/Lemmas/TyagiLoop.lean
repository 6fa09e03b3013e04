import Verif.Lemmas.Tyagi

/-! # The main loop of the grouping of Tyagi -/

namespace Verif
open Spec

/-- What is kept about the queues: `cur` are the customers of the emerging route. -/
structure TyQueues (N : ℕ) (D : ℕ → ℕ → ℚ) (served : ℕ → Bool) (cur : List ℕ) (queues : ℕ → KeyQueue) : Prop where
  len : ∀ i, (queues i).left ≤ (queues i).l.length
  key : ∀ i, ∀ e ∈ (queues i).l, e.2 = D i e.1 ∧ e.1 < N
  free : ∀ i, 1 ≤ i → i < N → served i = false → ∀ j, 1 ≤ j → j < N → j ≠ i → (served j = false ∨ j ∈ cur) →
    j ∈ (queues i).names
  inCur : ∀ i ∈ cur, ∀ j, 1 ≤ j → j < N → served j = false → j ∈ (queues i).names
  depot : ∀ j, 1 ≤ j → j < N → served j = false → j ∈ (queues 0).names
  seed : cur ≠ [] → ∃ z ∈ cur, 1 ≤ (queues 0).left ∧ (queues 0).l[(queues 0).left - 1]? = some (z, D 0 z) ∧
    ∀ j ∈ cur, j ≠ z → j ∈ (queues 0).names

/-- The invariant of the main loop. -/
structure TyInv (N : ℕ) (D : ℕ → ℕ → ℚ) (d : ℕ → ℚ) (C L : Option ℚ) (Fb : List ℕ) (done : List (List ℕ))
    (s : TyState) : Prop where
  q : TyQueues N D s.served (slotNodes s.route) s.queues
  sol : s.sol = tour done
  served : ∀ x, s.served x = true ↔ x = 0 ∨ x ∈ Fb ∨ x ∈ done.flatten ++ slotNodes s.route
  nodup : (done.flatten ++ slotNodes s.route).Nodup
  fresh : ∀ x ∈ done.flatten ++ slotNodes s.route, 1 ≤ x ∧ x < N ∧ x ∉ Fb
  doneOk : ∀ u ∈ done, NNGood N D d C L u
  liveOk : ∀ r, s.route = some r → NNGood N D d C L r.nodes ∧ r.prev ∈ r.nodes ∧
    (truthy C = true → r.demand = demand d r.nodes) ∧ (truthy L = true → r.cost = cost D r.nodes)

/-- The customers that are not served. -/
def tyUnserved (N : ℕ) (served : ℕ → Bool) : List ℕ := (List.range' 1 (N - 1)).filter fun n => ! served n

theorem tyUnserved_le (N : ℕ) (served : ℕ → Bool) : (tyUnserved N served).length ≤ N :=
  (List.length_filter_le _ _).trans (by simp)

theorem tyUnserved_lt {N : ℕ} {served : ℕ → Bool} {x : ℕ} (h1 : 1 ≤ x) (h2 : x < N) (h3 : served x = false) :
    (tyUnserved N (setRouted served x true)).length < (tyUnserved N served).length := by
  have : tyUnserved N (setRouted served x true) = (tyUnserved N served).filter fun n => ! decide (n = x) := by
    unfold tyUnserved
    rw [List.filter_filter]
    apply List.filter_congr
    intro y _
    by_cases hy : y = x <;> by_cases hz : served y = true <;> simp [setRouted, hy, hz]
  rw [this, List.length_filter_lt_length_iff_exists]
  refine ⟨x, ?_, by simp⟩
  simp only [tyUnserved, List.mem_filter, List.mem_range'_1]
  exact ⟨by omega, by simp [h3]⟩

/-- What decreases. -/
def tyMeasure (N : ℕ) (done : List (List ℕ)) (s : TyState) : ℕ :=
  (N - done.flatten.length) * (N + 2) + (tyUnserved N s.served).length

theorem setRouted_self (f : ℕ → Bool) (n : ℕ) (v : Bool) : setRouted f n v n = v := by simp [setRouted]

theorem setRouted_ne (f : ℕ → Bool) {n m : ℕ} (v : Bool) (h : m ≠ n) : setRouted f n v m = f m := by
  simp [setRouted, h]

theorem setLeft_ne (queues : ℕ → KeyQueue) {i j : ℕ} (p : ℕ) (h : j ≠ i) : setLeft queues i p j = queues j := by
  simp [setLeft, h]

theorem setLeft_self (queues : ℕ → KeyQueue) (i p : ℕ) : setLeft queues i p i = ⟨(queues i).l, p⟩ := by
  simp [setLeft]

theorem unserved_customer {N : ℕ} {D : ℕ → ℕ → ℚ} {d : ℕ → ℚ} {C L : Option ℚ} {Fb : List ℕ} {done : List (List ℕ)}
    {s : TyState} (h : TyInv N D d C L Fb done s) {x : ℕ} (hx : s.served x = false) :
    x ≠ 0 ∧ x ∉ Fb ∧ x ∉ done.flatten ++ slotNodes s.route := by
  have := (h.served x).not
  rw [hx] at this
  simp only [Bool.false_eq_true, not_false_eq_true, true_iff, not_or] at this
  exact this

theorem lt_of_getElem? {α : Type} {l : List α} {i : ℕ} {a : α} (h : l[i]? = some a) : i < l.length := by
  by_contra hh
  rw [List.getElem?_eq_none (by omega)] at h
  cases h

/-- Moving a queue to a place inside. -/
theorem queues_setLeft {N : ℕ} {D : ℕ → ℕ → ℚ} {queues : ℕ → KeyQueue}
    (len : ∀ i, (queues i).left ≤ (queues i).l.length)
    (key : ∀ i, ∀ e ∈ (queues i).l, e.2 = D i e.1 ∧ e.1 < N) {i p : ℕ} (hp : p ≤ (queues i).l.length) :
    (∀ j, (setLeft queues i p j).left ≤ (setLeft queues i p j).l.length) ∧
      ∀ j, ∀ e ∈ (setLeft queues i p j).l, e.2 = D j e.1 ∧ e.1 < N := by
  constructor
  · intro j
    by_cases h : j = i
    · subst h; rw [setLeft_self]; exact hp
    · rw [setLeft_ne _ _ h]; exact len j
  · intro j
    by_cases h : j = i
    · subst h; rw [setLeft_self]; exact key j
    · rw [setLeft_ne _ _ h]; exact key j

theorem tyServed_set (served : ℕ → Bool) (x j : ℕ) :
    setRouted served x true j = false ↔ served j = false ∧ j ≠ x := by
  by_cases hj : j = x
  · subst hj; simp [setRouted_self]
  · simp [setRouted_ne _ _ hj, hj]

/-- The queues after a customer is taken for a new route. -/
theorem queues_seed {N : ℕ} {D : ℕ → ℕ → ℚ} {served : ℕ → Bool} {queues : ℕ → KeyQueue} {x pos : ℕ}
    (h : TyQueues N D served [] queues) (h0 : served 0 = true)
    (hk : keySkip served (queues 0).rest (queues 0).left = some (x, pos)) :
    served x = false ∧ x < N ∧ TyQueues N D (setRouted served x true) [x] (setLeft queues 0 (pos + 1)) := by
  obtain ⟨k1, k2, ⟨key, k3⟩, k4, k5⟩ := names_some (h.len 0) hk
  have hkey := h.key 0 _ (List.mem_of_getElem? k3)
  simp only at hkey
  have hposl := lt_of_getElem? k3
  have hx1 : 1 ≤ x := Nat.one_le_iff_ne_zero.2 (by rintro rfl; rw [h0] at k1; cases k1)
  obtain ⟨l1, l2⟩ := queues_setLeft h.len h.key (i := 0) (p := pos + 1) (by omega)
  refine ⟨k1, hkey.2, l1, l2, ?_, ?_, ?_, ?_⟩
  · intro i i1 i2 i3 j j1 j2 j3 j4
    rw [setLeft_ne _ _ (by omega)]
    simp only [tyServed_set, List.mem_singleton] at i3 j4
    refine h.free i i1 i2 i3.1 j j1 j2 j3 (.inl ?_)
    rcases j4 with j4 | rfl
    · exact j4.1
    · exact k1
  · intro i hi j j1 j2 j3
    simp only [List.mem_singleton] at hi
    subst hi
    rw [setLeft_ne _ _ (by omega)]
    rw [tyServed_set] at j3
    exact h.free i hx1 hkey.2 k1 j j1 j2 j3.2 (.inl j3.1)
  · intro j j1 j2 j3
    rw [tyServed_set] at j3
    rw [setLeft_self]
    exact k5 j (h.depot j j1 j2 j3.1) j3.1 j3.2
  · intro _
    refine ⟨x, by simp, ?_, ?_, ?_⟩
    · rw [setLeft_self]; simp
    · rw [setLeft_self]; simp only [Nat.add_sub_cancel]; rw [k3, hkey.1]
    · intro j hj hjx; simp at hj; exact absurd hj hjx

/-- The queues after the route is extended. -/
theorem queues_extend {N : ℕ} {D : ℕ → ℕ → ℚ} {served : ℕ → Bool} {queues : ℕ → KeyQueue} {cur cur' : List ℕ}
    {prev x pos : ℕ} (h : TyQueues N D served cur queues) (h0 : served 0 = true) (hc : ∀ y ∈ cur, served y = true ∧ y ≠ 0)
    (hp : prev ∈ cur) (hk : keySkip served (queues prev).rest (queues prev).left = some (x, pos))
    (hcur : cur'.Perm (x :: cur)) :
    served x = false ∧ x < N ∧ TyQueues N D (setRouted served x true) cur' (setLeft queues prev (pos + 1)) := by
  obtain ⟨k1, k2, ⟨key, k3⟩, k4, k5⟩ := names_some (h.len prev) hk
  have hkey := h.key prev _ (List.mem_of_getElem? k3)
  simp only at hkey
  have hposl := lt_of_getElem? k3
  have hx1 : 1 ≤ x := Nat.one_le_iff_ne_zero.2 (by rintro rfl; rw [h0] at k1; cases k1)
  obtain ⟨l1, l2⟩ := queues_setLeft h.len h.key (i := prev) (p := pos + 1) (by omega)
  obtain ⟨hp1, hp0⟩ := hc prev hp
  have hxp : x ≠ prev := by rintro rfl; rw [hp1] at k1; cases k1
  have hmem : ∀ y, y ∈ cur' ↔ y = x ∨ y ∈ cur := fun y => by rw [hcur.mem_iff, List.mem_cons]
  refine ⟨k1, hkey.2, l1, l2, ?_, ?_, ?_, ?_⟩
  · intro i i1 i2 i3 j j1 j2 j3 j4
    rw [tyServed_set] at i3
    rw [setLeft_ne _ _ (by rintro rfl; rw [hp1] at i3; cases i3.1)]
    rw [tyServed_set, hmem] at j4
    refine h.free i i1 i2 i3.1 j j1 j2 j3 ?_
    rcases j4 with j4 | rfl | j4
    · exact .inl j4.1
    · exact .inl k1
    · exact .inr j4
  · intro i hi j j1 j2 j3
    rw [hmem] at hi
    rw [tyServed_set] at j3
    rcases hi with rfl | hi
    · rw [setLeft_ne _ _ hxp]
      exact h.free i hx1 hkey.2 k1 j j1 j2 j3.2 (.inl j3.1)
    · by_cases hip : i = prev
      · subst hip
        rw [setLeft_self]
        exact k5 j (h.inCur i hi j j1 j2 j3.1) j3.1 j3.2
      · rw [setLeft_ne _ _ hip]
        exact h.inCur i hi j j1 j2 j3.1
  · intro j j1 j2 j3
    rw [tyServed_set] at j3
    rw [setLeft_ne _ _ (fun e => hp0 e.symm)]
    exact h.depot j j1 j2 j3.1
  · intro _
    obtain ⟨z, z1, z2, z3, z4⟩ := h.seed (List.ne_nil_of_mem hp)
    rw [setLeft_ne _ _ (fun e => hp0 e.symm)]
    refine ⟨z, (hmem z).2 (.inr z1), z2, z3, fun j hj hjz => ?_⟩
    rcases (hmem j).1 hj with rfl | hj
    · exact h.depot j hx1 hkey.2 k1
    · exact z4 j hj hjz

/-- The queue of a customer of the route is moved over served nodes. -/
theorem queues_skip {N : ℕ} {D : ℕ → ℕ → ℚ} {served : ℕ → Bool} {queues : ℕ → KeyQueue} {cur : List ℕ}
    {i x pos : ℕ} (h : TyQueues N D served cur queues) (hc : ∀ y ∈ cur, served y = true ∧ y ≠ 0)
    (hi : i ∈ cur) (hk : keySkip served (queues i).rest (queues i).left = some (x, pos)) :
    TyQueues N D served cur (setLeft queues i pos) := by
  obtain ⟨k1, k2, ⟨key, k3⟩, k4, k5⟩ := names_some (h.len i) hk
  have hposl := lt_of_getElem? k3
  obtain ⟨l1, l2⟩ := queues_setLeft h.len h.key (i := i) (p := pos) (by omega)
  obtain ⟨hp1, hp0⟩ := hc i hi
  refine ⟨l1, l2, ?_, ?_, ?_, ?_⟩
  · intro a a1 a2 a3 j j1 j2 j3 j4
    rw [setLeft_ne _ _ (by rintro rfl; rw [hp1] at a3; cases a3)]
    exact h.free a a1 a2 a3 j j1 j2 j3 j4
  · intro a ha j j1 j2 j3
    by_cases hai : a = i
    · subst hai
      rw [setLeft_self]
      exact k4 j (h.inCur a ha j j1 j2 j3) j3
    · rw [setLeft_ne _ _ hai]
      exact h.inCur a ha j j1 j2 j3
  · intro j j1 j2 j3
    rw [setLeft_ne _ _ (fun e => hp0 e.symm)]
    exact h.depot j j1 j2 j3
  · intro hne
    rw [setLeft_ne _ _ (fun e => hp0 e.symm)]
    exact h.seed hne

/-- The route is stored. -/
theorem queues_store {N : ℕ} {D : ℕ → ℕ → ℚ} {served : ℕ → Bool} {queues : ℕ → KeyQueue} {cur : List ℕ}
    (h : TyQueues N D served cur queues) : TyQueues N D served [] queues :=
  ⟨h.len, h.key, fun i i1 i2 i3 j j1 j2 j3 j4 => h.free i i1 i2 i3 j j1 j2 j3 (.inl (j4.resolve_right (by simp))),
    by simp, h.depot, fun hh => absurd rfl hh⟩

/-- The route is stored after an interchange: `x` of the route is free again and `y` is in its place. -/
theorem queues_swap {N : ℕ} {D : ℕ → ℕ → ℚ} {served : ℕ → Bool} {queues queues' : ℕ → KeyQueue} {cur : List ℕ} {x y : ℕ}
    (h : TyQueues N D served cur queues) (hc : ∀ y ∈ cur, served y = true ∧ y ≠ 0 ∧ y < N)
    (hx : x ∈ cur)
    (hp : tyPushAll D (setRouted served y true) x (List.range N) queues = .ok queues') :
    TyQueues N D (setRouted (setRouted served y true) x false) [] queues' := by
  obtain ⟨qs, e1, e2⟩ := tyPushAll_spec (D := D) (served := setRouted served y true) (x := x) (List.range N)
    List.nodup_range h.len
  rw [e1] at hp
  injection hp with hp
  subst hp
  obtain ⟨x1, x0, xN⟩ := hc x hx
  have hs : ∀ j, setRouted (setRouted served y true) x false j = false ↔ j = x ∨ (served j = false ∧ j ≠ y) := by
    intro j
    by_cases hj : j = x
    · subst hj; simp [setRouted_self]
    · rw [setRouted_ne _ _ hj, tyServed_set]; simp [hj]
  have mono : ∀ i, ((qs i).left ≤ (qs i).l.length) ∧ (∀ e ∈ (qs i).l, e.2 = D i e.1 ∧ e.1 < N) ∧
      ∀ j ∈ (queues i).names, j ∈ (qs i).names := by
    intro i
    by_cases hi : i ∈ List.range N ∧ (i = 0 ∨ setRouted served y true i = false) ∧ i ≠ x
    · obtain ⟨q', p1, p2, p3, p4, _⟩ := keyPush_spec (h.len i) x (D i x)
      rw [(e2 i).1 hi] at p1
      injection p1 with p1
      rw [p1]
      refine ⟨p2, fun e he => ?_, p4⟩
      rcases p3 e he with he | rfl
      · exact h.key i e he
      · exact ⟨rfl, xN⟩
    · rw [(e2 i).2 hi]
      exact ⟨h.len i, h.key i, fun j hj => hj⟩
  refine ⟨fun i => (mono i).1, fun i => (mono i).2.1, ?_, by simp, ?_, fun hh => absurd rfl hh⟩
  · intro i i1 i2 i3 j j1 j2 j3 j4
    apply (mono i).2.2
    rw [hs] at i3
    have j4 := j4.resolve_right (by simp)
    rw [hs] at j4
    rcases i3 with rfl | ⟨i3, i4⟩
    · exact h.inCur i hx j j1 j2 (j4.resolve_left j3).1
    · refine h.free i i1 i2 i3 j j1 j2 j3 ?_
      rcases j4 with rfl | j4
      · exact .inr hx
      · exact .inl j4.1
  · intro j j1 j2 j3
    rw [hs] at j3
    rcases j3 with rfl | j3
    · obtain ⟨z, z1, z2, z3, z4⟩ := h.seed (List.ne_nil_of_mem hx)
      by_cases hz : j = z
      · obtain ⟨q', p1, p2, p3, p4, p5⟩ := keyPush_spec (h.len 0) j (D 0 j)
        rw [(e2 0).1 ⟨List.mem_range.2 (by omega), .inl rfl, fun e => x0 e.symm⟩] at p1
        injection p1 with p1
        rw [p1]
        exact p5 _ z2 z3 (by rw [hz])
      · exact (mono 0).2.2 j (z4 j hx hz)
    · exact (mono 0).2.2 j (h.depot j j1 j2 j3.1)

/-- A new route. -/
theorem tySeed_spec {N : ℕ} {D : ℕ → ℕ → ℚ} {d : ℕ → ℚ} {C L : Option ℚ} {Fb : List ℕ} {done : List (List ℕ)}
    {s : TyState} (h : TyInv N D d C L Fb done s) (hr : s.route = none) :
    (tySeed d C s = .error .indexError ∧ ∀ j, 1 ≤ j → j < N → s.served j = true) ∨
      ∃ s', tySeed d C s = .ok s' ∧ TyInv N D d C L Fb done s' ∧ tyMeasure N done s' < tyMeasure N done s := by
  unfold tySeed
  cases hk : keySkip s.served (s.queues 0).rest (s.queues 0).left with
  | none =>
    refine .inl ⟨rfl, fun j h1 h2 => ?_⟩
    by_contra hj
    rw [Bool.not_eq_true] at hj
    have := names_none hk j (h.q.depot j h1 h2 hj)
    rw [hj] at this; cases this
  | some p =>
    obtain ⟨x, pos⟩ := p
    right
    simp only
    have hq := h.q
    rw [hr] at hq
    obtain ⟨k1, k2, k3⟩ := queues_seed hq ((h.served 0).2 (.inl rfl)) hk
    obtain ⟨x0, xF, xn⟩ := unserved_customer h k1
    rw [hr] at xn
    simp only [slotNodes, List.append_nil] at xn
    have hx1 : 1 ≤ x := by omega
    refine ⟨_, rfl, ⟨k3, h.sol, ?_, ?_, ?_, h.doneOk, ?_⟩, ?_⟩
    · intro y
      simp only
      by_cases hy : y = x
      · subst hy; simp [setRouted_self, slotNodes]
      · rw [setRouted_ne _ _ hy, h.served y, hr]; simp [slotNodes, hy]
    · simp only [slotNodes]
      have := h.nodup
      rw [hr] at this
      simp only [slotNodes, List.append_nil] at this
      refine List.nodup_append.2 ⟨this, by simp, fun a ha b hb e => ?_⟩
      simp at hb; subst e; subst hb; exact xn ha
    · intro y hy
      simp only [slotNodes, List.mem_append, List.mem_singleton] at hy
      rcases hy with hy | rfl
      · exact h.fresh y (List.mem_append_left _ hy)
      · exact ⟨hx1, k2, xF⟩
    · intro r hr'
      injection hr' with hr'
      subst hr'
      refine ⟨⟨by simp, fun hs => hs x hx1 k2⟩, by simp, ?_, ?_⟩
      · intro hc; simp [hc, demand]
      · intro _; simp [cost]
    · have := tyUnserved_lt hx1 k2 k1
      simp only [tyMeasure]
      omega

theorem flatten_concat {α : Type} (us : List (List α)) (u : List α) : (us ++ [u]).flatten = us.flatten ++ u := by simp

theorem nodup_lt_length {l : List ℕ} {N : ℕ} (h : l.Nodup) (hl : ∀ x ∈ l, x < N) : l.length ≤ N := by
  have := (List.subperm_of_subset h (fun x hx => List.mem_range.2 (hl x hx))).length_le
  simpa using this

theorem set_perm_swap {u : List ℕ} {i x : ℕ} (hi : u[i]? = some x) (y : ℕ) : (x :: u.set i y).Perm (y :: u) := by
  induction u generalizing i with
  | nil => simp at hi
  | cons a u ih =>
    cases i with
    | zero =>
      simp only [List.getElem?_cons_zero, Option.some.injEq] at hi
      subst hi
      exact List.Perm.swap _ _ _
    | succ i =>
      simp only [List.getElem?_cons_succ] at hi
      rw [List.set_cons_succ]
      exact (List.Perm.swap _ _ _).trans (((ih hi).cons a).trans (List.Perm.swap _ _ _))

/-- A stored route makes progress. -/
theorem measure_store {N : ℕ} {done : List (List ℕ)} {u : List ℕ} {s s' : TyState} (hu : u ≠ [])
    (hn : (done ++ [u]).flatten.Nodup) (hl : ∀ x ∈ (done ++ [u]).flatten, x < N) :
    tyMeasure N (done ++ [u]) s' < tyMeasure N done s := by
  have h1 := nodup_lt_length hn hl
  have h2 := tyUnserved_le N s'.served
  have h3 : 0 < u.length := List.length_pos_of_ne_nil hu
  rw [flatten_concat, List.length_append] at h1
  unfold tyMeasure
  rw [flatten_concat, List.length_append]
  obtain ⟨k, hk⟩ : ∃ k, N - done.flatten.length = (N - (done.flatten.length + u.length)) + (k + 1) :=
    ⟨u.length - 1, by omega⟩
  rw [hk]
  nlinarith

/-- The extension of the route, or its storage. -/
theorem tyExtend_spec {N : ℕ} {D : ℕ → ℕ → ℚ} {d : ℕ → ℚ} {C L : Option ℚ} {Fb : List ℕ} {done : List (List ℕ)}
    {s : TyState} (endOnly all : Bool) (h : TyInv N D d C L Fb done s) {r : NNRoute} (hr : s.route = some r)
    {first last nn pos : ℕ} (hf : r.nodes.head? = some first) (hl : r.nodes.getLast? = some last)
    (hk : keySkip s.served (s.queues r.prev).rest (s.queues r.prev).left = some (nn, pos)) :
    ∃ s' done', tyExtend D d C L endOnly (route_end_interchange D d C L N all) s r first last nn pos = .ok s' ∧
      TyInv N D d C L Fb done' s' ∧ tyMeasure N done' s' < tyMeasure N done s := by
  obtain ⟨g1, g2, g5, g6⟩ := h.liveOk r hr
  have hq := h.q
  have hsv := h.served
  have hnd := h.nodup
  have hfr := h.fresh
  rw [hr] at hq hnd hfr
  simp only [hr, slotNodes] at hq hsv hnd hfr
  have hcur : ∀ y ∈ r.nodes, s.served y = true ∧ y ≠ 0 := by
    intro y hy
    refine ⟨(hsv y).2 (.inr (.inr (List.mem_append_right _ hy))), ?_⟩
    have := hfr y (List.mem_append_right _ hy)
    omega
  have hzero : s.served 0 = true := (hsv 0).2 (.inl rfl)
  obtain ⟨n1, _⟩ := keySkip_some hk
  obtain ⟨n0, nF, nn'⟩ := unserved_customer h n1
  simp only [hr, slotNodes] at nn'
  have hn1 : 1 ≤ nn := by omega
  unfold tyExtend
  simp only
  generalize hst : (!endOnly && decide (D 0 nn + D nn first + D last 0 < D 0 first + D last nn + D nn 0)) = atStart
  by_cases hv : (exceeds C C_EPS (r.demand + d nn) || exceeds L S_EPS (r.cost +
      if atStart = true then D 0 nn + D nn first + D last 0 else D 0 first + D last nn + D nn 0)) = true
  · rw [if_pos hv]
    have hq1 := queues_skip hq hcur g2 hk
    have hlm : last ∈ r.nodes := List.mem_of_getLast? hl
    have hnN : nn < N := by
      obtain ⟨_, _, ⟨key, k3⟩, _, _⟩ := names_some (hq.len r.prev) hk
      exact (hq.key r.prev _ (List.mem_of_getElem? k3)).2
    obtain ⟨y, pos', hy⟩ : ∃ y pos', keySkip s.served (setLeft s.queues r.prev pos last).rest
        (setLeft s.queues r.prev pos last).left = some (y, pos') := by
      cases hh : keySkip s.served (setLeft s.queues r.prev pos last).rest (setLeft s.queues r.prev pos last).left with
      | none =>
        have := names_none hh nn (hq1.inCur last hlm nn hn1 hnN n1)
        rw [n1] at this; cases this
      | some p => exact ⟨p.1, p.2, rfl⟩
    have hq2 := queues_skip hq1 hcur hlm hy
    obtain ⟨y1, _, ⟨key, y3⟩, _, _⟩ := names_some (hq1.len last) hy
    have hyN : y < N := (hq1.key last _ (List.mem_of_getElem? y3)).2
    obtain ⟨y0, yF, yn⟩ := unserved_customer h y1
    simp only [hr, slotNodes] at yn
    have hposl := lt_of_getElem? y3
    have hwr := cost_wrap_split (D := D) hf hl
    rw [show [0] ++ r.nodes ++ [0] = wrap r.nodes by simp [wrap]]
    rcases interchange_spec (D := D) (d := d) (C := C) (L := L) (N := N) (all := all) (u := r.nodes) (rd := r.demand)
        (rl := D 0 first + r.cost + D last 0) (fun hh => g5 (truthy_iff.2 hh))
        (fun hh => by rw [hwr, g6 (truthy_iff.2 hh)]) hl hq1.len (by omega) hy with
      ⟨e1, _⟩ | ⟨i, x, queues', e1, e2, e3, e4⟩
    · rw [e1]
      refine ⟨_, done ++ [r.nodes], rfl, ⟨queues_store hq2, ?_, ?_, ?_, ?_, ?_, ?_⟩, ?_⟩
      · simp only [wrap, List.drop_succ_cons, List.drop_zero]
        rw [h.sol, tour_concat, List.append_assoc]
      · intro z; rw [flatten_concat]; simpa [slotNodes] using hsv z
      · rw [flatten_concat]; simpa [slotNodes] using hnd
      · intro z hz; rw [flatten_concat] at hz; exact hfr z (by simpa [slotNodes] using hz)
      · intro u hu
        rcases List.mem_append.1 hu with hu | hu
        · exact h.doneOk u hu
        · rw [List.mem_singleton.1 hu]; exact g1
      · intro r' hr'; cases hr'
      · refine measure_store g1.1 (by rw [flatten_concat]; exact hnd) fun z hz => ?_
        rw [flatten_concat] at hz; exact (hfr z hz).2.1
    · rw [e3]
      have hxm : x ∈ r.nodes := List.mem_of_getElem? e2
      have hperm := set_perm_swap e2 y
      have hv : (r.nodes.set i y) ≠ [] := by
        intro hh
        have := congrArg List.length hh
        simp only [List.length_set, List.length_nil] at this
        exact g1.1 (List.length_eq_zero_iff.1 this)
      have hxy : x ≠ y := fun e => yn (List.mem_append_right _ (e ▸ hxm))
      have hpall : (x :: (done.flatten ++ r.nodes.set i y)).Perm (y :: (done.flatten ++ r.nodes)) :=
        (List.perm_middle.symm).trans ((hperm.append_left _).trans List.perm_middle)
      have hnd' : (x :: (done.flatten ++ r.nodes.set i y)).Nodup :=
        hpall.nodup_iff.2 (List.nodup_cons.2 ⟨yn, hnd⟩)
      have hmem : ∀ z, z ∈ done.flatten ++ r.nodes.set i y ↔ (z = y ∨ z ∈ done.flatten ++ r.nodes) ∧ z ≠ x := by
        intro z
        have := hpall.mem_iff (a := z)
        simp only [List.mem_cons] at this
        constructor
        · intro hz
          refine ⟨this.1 (.inr hz), fun e => ?_⟩
          subst e; exact (List.nodup_cons.1 hnd').1 hz
        · rintro ⟨hz, hzx⟩
          exact (this.2 hz).resolve_left hzx
      have hfr' : ∀ z ∈ done.flatten ++ r.nodes.set i y, 1 ≤ z ∧ z < N ∧ z ∉ Fb := by
        intro z hz
        rcases ((hmem z).1 hz).1 with rfl | hz
        · exact ⟨by omega, hyN, yF⟩
        · exact hfr z hz
      have hx0 := hfr x (List.mem_append_right _ hxm)
      refine ⟨_, done ++ [r.nodes.set i y], rfl, ⟨?_, ?_, ?_, ?_, ?_, ?_, ?_⟩, ?_⟩
      · refine queues_swap hq2 (fun z hz => ?_) hxm e4
        exact ⟨(hcur z hz).1, (hcur z hz).2, (hfr z (List.mem_append_right _ hz)).2.1⟩
      · simp only [wrap, List.drop_succ_cons, List.drop_zero]
        rw [h.sol, tour_concat, List.append_assoc]
      · intro z
        simp only [slotNodes, List.append_nil]
        rw [flatten_concat, hmem]
        by_cases hzx : z = x
        · subst hzx
          rw [setRouted_self]
          simp only [Bool.false_eq_true, ne_eq, not_true_eq_false, and_false, or_false, false_iff, not_or]
          exact ⟨by omega, hx0.2.2⟩
        · rw [setRouted_ne _ _ hzx]
          by_cases hzy : z = y
          · subst hzy; simp [setRouted_self, hzx]
          · rw [setRouted_ne _ _ hzy, hsv z]; simp [hzy, hzx]
      · simp only [slotNodes, List.append_nil]
        rw [flatten_concat]; exact (List.nodup_cons.1 hnd').2
      · simp only [slotNodes, List.append_nil]
        rw [flatten_concat]; exact hfr'
      · intro u hu
        rcases List.mem_append.1 hu with hu | hu
        · exact h.doneOk u hu
        · rw [List.mem_singleton.1 hu]; exact ⟨hv, fun _ => e1.1.1⟩
      · intro r' hr'; cases hr'
      · refine measure_store hv (by rw [flatten_concat]; exact (List.nodup_cons.1 hnd').2) fun z hz => ?_
        rw [flatten_concat] at hz; exact (hfr' z hz).2.1
  · rw [if_neg hv]
    simp only [Bool.or_eq_true, not_or, Bool.not_eq_true] at hv
    obtain ⟨v1, v2⟩ := hv
    generalize hr' : (if atStart = true then
        (⟨nn :: r.nodes, nn, if truthy C = true then r.demand + d nn else r.demand,
          if truthy L = true then r.cost + D nn first else r.cost⟩ : NNRoute)
      else ⟨r.nodes ++ [nn], nn, if truthy C = true then r.demand + d nn else r.demand,
          if truthy L = true then r.cost + D last nn else r.cost⟩) = r'
    have key : r'.nodes.Perm (nn :: r.nodes) ∧ r'.prev = nn ∧
        (truthy C = true → r'.demand = demand d r'.nodes) ∧ (truthy L = true → r'.cost = cost D r'.nodes) ∧
        (truthy L = true → cost D (wrap r'.nodes) = r.cost +
          if atStart = true then D 0 nn + D nn first + D last 0 else D 0 first + D last nn + D nn 0) := by
      obtain ⟨w1, w2⟩ := wrap_extended (D := D) hf hl nn
      cases atStart with
      | true =>
        rw [if_pos rfl] at hr'
        subst hr'
        have hcost : cost D (nn :: r.nodes) = D nn first + cost D r.nodes := by
          cases hn : r.nodes with
          | nil => rw [hn] at hf; cases hf
          | cons a t => rw [hn] at hf; simp only [List.head?_cons, Option.some.injEq] at hf; subst hf; simp
        refine ⟨List.Perm.refl _, rfl, ?_, ?_, ?_⟩
        · intro hc; simp only [hc, if_true]; rw [g5 hc, demand_cons]; ring
        · intro hc; simp only [hc, if_true]; rw [g6 hc, hcost]; ring
        · intro hc
          simp only [w1, g6 hc, if_true]
          ring
      | false =>
        rw [if_neg (by simp)] at hr'
        subst hr'
        obtain ⟨w, hw⟩ : ∃ w, r.nodes = w ++ [last] := ⟨r.nodes.dropLast, (List.dropLast_append_getLast? last hl).symm⟩
        have hcost : cost D (r.nodes ++ [nn]) = cost D r.nodes + D last nn := by
          rw [hw, show w ++ [last] ++ [nn] = w ++ last :: [nn] by simp, cost_append_cons]
          simp
        refine ⟨List.perm_append_comm, rfl, ?_, ?_, ?_⟩
        · intro hc; simp only [hc, if_true]; rw [g5 hc, demand_append]; simp
        · intro hc; simp only [hc, if_true]; rw [g6 hc, hcost]
        · intro hc
          simp only [w2, g6 hc, Bool.false_eq_true, if_false]
          ring
    obtain ⟨k1, k2, k4, k5, k6⟩ := key
    obtain ⟨_, hnN, hq'⟩ := queues_extend hq hzero hcur g2 hk k1
    have hpall : (done.flatten ++ r'.nodes).Perm (nn :: (done.flatten ++ r.nodes)) :=
      (k1.append_left _).trans List.perm_middle
    refine ⟨_, done, rfl, ⟨hq', h.sol, ?_, ?_, ?_, h.doneOk, ?_⟩, ?_⟩
    · intro z
      simp only [slotNodes]
      rw [hpall.mem_iff]
      by_cases hz : z = nn
      · subst hz; simp [setRouted_self]
      · rw [setRouted_ne _ _ hz, hsv z]; simp [hz]
    · exact hpall.nodup_iff.2 (List.nodup_cons.2 ⟨nn', hnd⟩)
    · intro z hz
      rcases List.mem_cons.1 (hpall.mem_iff.1 hz) with rfl | hz
      · exact ⟨hn1, hnN, nF⟩
      · exact hfr z hz
    · intro r'' hr''
      injection hr'' with hr''
      subst hr''
      refine ⟨⟨fun hh => ?_, fun _ => ⟨?_, ?_⟩⟩, ?_, k4, k5⟩
      · rw [hh] at k1; exact absurd k1.symm.eq_nil (by simp)
      · rw [exceeds_iff] at v1
        intro c hc hc0
        have ht : truthy C = true := by simp [truthy, hc, hc0]
        have := v1 c hc hc0
        rw [g5 ht] at this
        rw [demand_perm _ k1, demand_cons]
        linarith
      · rw [exceeds_iff] at v2
        intro c hc hc0
        have ht : truthy L = true := by simp [truthy, hc, hc0]
        rw [k6 ht]
        exact v2 c hc hc0
      · rw [k2]; exact k1.mem_iff.2 (by simp)
    · have := tyUnserved_lt hn1 hnN n1
      simp only [tyMeasure]
      omega

theorem tyStep_spec {N : ℕ} {D : ℕ → ℕ → ℚ} {d : ℕ → ℚ} {C L : Option ℚ} {Fb : List ℕ} {done : List (List ℕ)}
    {s : TyState} (endOnly all : Bool) (h : TyInv N D d C L Fb done s) :
    (tyStep D d C L endOnly (route_end_interchange D d C L N all) s = .error .indexError ∧
        ∀ j, 1 ≤ j → j < N → s.served j = true) ∨
      ∃ s' done', tyStep D d C L endOnly (route_end_interchange D d C L N all) s = .ok s' ∧
        TyInv N D d C L Fb done' s' ∧ tyMeasure N done' s' < tyMeasure N done s := by
  unfold tyStep
  cases hr : s.route with
  | none =>
    simp only
    rcases tySeed_spec h hr with e | ⟨s', e1, e2, e3⟩
    · exact .inl e
    · exact .inr ⟨s', done, e1, e2, e3⟩
  | some r =>
    simp only
    obtain ⟨g1, g2, g5, g6⟩ := h.liveOk r hr
    obtain ⟨first, last, hf, hl⟩ := ends g1.1
    have hn : 0 < r.nodes.length := List.length_pos_of_ne_nil g1.1
    rw [show idx r.nodes 0 = .ok first by rw [idx, ← List.head?_eq_getElem?, hf],
      show idxNeg r.nodes 1 = .ok last by
        rw [idxNeg, if_neg (by omega), idx, ← List.getLast?_eq_getElem?, hl]]
    simp only
    cases hk : keySkip s.served (s.queues r.prev).rest (s.queues r.prev).left with
    | none =>
      refine .inl ⟨rfl, fun j h1 h2 => ?_⟩
      by_contra hj
      rw [Bool.not_eq_true] at hj
      have := names_none hk j (h.q.inCur r.prev (by rw [hr]; exact g2) j h1 h2 hj)
      rw [hj] at this; cases this
    | some p => exact .inr (tyExtend_spec endOnly all h hr hf hl hk)

theorem tyLoop_spec {N : ℕ} {D : ℕ → ℕ → ℚ} {d : ℕ → ℚ} {C L : Option ℚ} {Fb : List ℕ} (endOnly all : Bool)
    {done : List (List ℕ)} {s : TyState} (h : TyInv N D d C L Fb done s) :
    ∃ s' done', (∀ fuel, tyMeasure N done s < fuel →
        tyLoop D d C L endOnly (route_end_interchange D d C L N all) fuel s = .ok (some s')) ∧
      TyInv N D d C L Fb done' s' ∧ ∀ j, 1 ≤ j → j < N → s'.served j = true := by
  induction hμ : tyMeasure N done s using Nat.strong_induction_on generalizing s done with
  | _ μ ih =>
    rcases tyStep_spec endOnly all h with ⟨e1, e2⟩ | ⟨s1, done1, e1, e2, e3⟩
    · refine ⟨s, done, fun fuel hf => ?_, h, e2⟩
      obtain ⟨f, rfl⟩ : ∃ f, fuel = f + 1 := ⟨fuel - 1, by omega⟩
      rw [tyLoop, e1]
    · obtain ⟨s', done', i1, i2, i3⟩ := ih _ (hμ ▸ e3) e2 rfl
      refine ⟨s', done', fun fuel hf => ?_, i2, i3⟩
      obtain ⟨f, rfl⟩ : ∃ f, fuel = f + 1 := ⟨fuel - 1, by omega⟩
      rw [tyLoop, e1]
      exact i1 f (by omega)

theorem keyQueue_names (D : ℕ → ℕ → ℚ) (N i : ℕ) : (keyQueue D N i).names = nnQueue D N i := by
  simp only [KeyQueue.names, KeyQueue.rest, keyQueue, nnQueue, List.drop_one, List.map_tail, List.map_map]
  congr 1
  exact List.map_id _

theorem tyStart_inv {N : ℕ} {D : ℕ → ℕ → ℚ} (hN : 1 ≤ N) (hD : DistinctCustomers N D) (d : ℕ → ℚ) (C L : Option ℚ)
    (Fb : List ℕ) : TyInv N D d C L Fb [] (tyStart D N Fb) := by
  have hm : ∀ i j, i < N → 1 ≤ j → j < N → j ≠ i → j ∈ (keyQueue D N i).names := by
    intro i j h1 h2 h3 h4
    rw [keyQueue_names]
    exact nnQueue_mem hD h1 h2 h3 h4
  refine ⟨⟨?_, ?_, ?_, by simp [tyStart, slotNodes], ?_, fun h => absurd rfl h⟩, rfl, ?_, by simp [tyStart, slotNodes],
    by simp [tyStart, slotNodes], by simp, fun r hr => by cases hr⟩
  · intro i
    simp only [tyStart, keyQueue, List.length_map, (pySort_perm _ _).length_eq, List.length_range]
    exact hN
  · intro i e he
    simp only [tyStart, keyQueue, List.mem_map, mem_pySort, List.mem_range] at he
    obtain ⟨n, hn, rfl⟩ := he
    exact ⟨rfl, hn⟩
  · intro i i1 i2 _ j j1 j2 j3 _
    exact hm i j i2 j1 j2 j3
  · intro j j1 j2 _
    exact hm 0 j (by omega) j1 j2 (by omega)
  · intro x
    simp [tyStart, slotNodes]

theorem tyClose_eq {done : List (List ℕ)} {s : TyState} (h : s.sol = tour done) :
    tyClose s = tour (done ++ (s.route.map (·.nodes)).toList) := by
  unfold tyClose
  cases hr : s.route with
  | none => simp [h]
  | some r => simp only [Option.map_some, Option.toList_some]; rw [h, tour_concat, List.append_assoc]

/-- The grouping ends, and what it has found. -/
theorem grouping_spec {N : ℕ} {D : ℕ → ℕ → ℚ} (d : ℕ → ℚ) (C L : Option ℚ) (endOnly all : Bool) (Fb : List ℕ)
    (hN : 1 ≤ N) (hD : DistinctCustomers N D) :
    ∃ us : List (List ℕ), us.flatten.Perm (allowed N Fb) ∧ (∀ u ∈ us, NNGood N D d C L u) ∧
      ∀ fuel, N * (N + 2) + N < fuel →
        nn_with_callback D d C L N endOnly Fb (route_end_interchange D d C L N all) fuel =
          .ok (some (if us = [] then none else some (tour us))) := by
  have h0 := tyStart_inv hN hD d C L Fb
  obtain ⟨s', done', h1, h2, h3⟩ := tyLoop_spec endOnly all h0
  have hfl : (done' ++ (s'.route.map (·.nodes)).toList).flatten = done'.flatten ++ slotNodes s'.route := by
    rw [List.flatten_append]
    cases s'.route <;> simp [slotNodes]
  refine ⟨done' ++ (s'.route.map (·.nodes)).toList, ?_, ?_, fun fuel hf => ?_⟩
  · rw [hfl]
    refine (List.perm_ext_iff_of_nodup h2.nodup ((List.nodup_range' (step := 1)).filter _)).2 fun x => ?_
    simp only [List.mem_filter, List.mem_range'_1, Bool.not_eq_true', decide_eq_false_iff_not]
    constructor
    · intro hx
      obtain ⟨h1, h2, h3⟩ := h2.fresh x hx
      exact ⟨by omega, h3⟩
    · rintro ⟨⟨h4, h5⟩, h6⟩
      rcases (h2.served x).1 (h3 x h4 (by omega)) with e | e | e
      · omega
      · exact absurd e h6
      · exact e
  · intro u hu
    rcases List.mem_append.1 hu with hu | hu
    · exact h2.doneOk u hu
    · cases hr : s'.route with
      | none => rw [hr] at hu; simp at hu
      | some r =>
        rw [hr] at hu
        simp only [Option.map_some, Option.toList_some, List.mem_singleton] at hu
        subst hu
        exact (h2.liveOk r hr).1
  · unfold nn_with_callback
    have := tyUnserved_le N (tyStart D N Fb).served
    rw [h1 fuel (by unfold tyMeasure; simp only [List.flatten_nil, List.length_nil, Nat.sub_zero]; omega)]
    simp only
    rw [tyClose_eq h2.sol]
    simp only [tour_length_one]

end Verif
