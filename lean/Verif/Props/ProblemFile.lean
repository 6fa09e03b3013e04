import Verif.Lemmas.ProblemFileLimits

/-! # Problem files (C65) -/

namespace Verif

open Spec

/-! ## C65: what is written is read -/

theorem writeExplicit_nodes {n : ℕ} {selected sel : List ℕ} (hs : Nodes selected n sel) (h0 : sel ≠ []) (D : ℕ → ℕ → ℚ)
    (precision : Option ℚ) : writeExplicit n D selected precision = writeExplicit n D sel precision := by
  rw [← wOut_eq n D selected sel precision (nodes_eq hs), ← wOut_eq n D sel sel precision (by rw [if_neg h0])]

theorem pairs_demands {n : ℕ} {x : ℚ} {t : List ℚ} :
    ((wPairs n (some (x :: t))).map fun e => some (e.2 : ℚ)) = some 0 :: t.map fun q => some ((pyInt q : ℤ) : ℚ) := by
  simp only [wPairs, List.map_cons, Int.cast_zero, List.cons.injEq, true_and]
  have : ((pyRange 2 (t.length + 2)).zip (t.map pyInt)).map Prod.snd = t.map pyInt :=
    List.map_snd_zip (by simp [pyRange])
  have h2 := congrArg (List.map fun z : ℤ => some (z : ℚ)) this
  rw [List.map_map, List.map_map] at h2
  exact h2

theorem pairs_ones {n : ℕ} (hn : 1 ≤ n) :
    ((wPairs n none).map fun e => some (e.2 : ℚ)) = some 0 :: List.replicate (n - 1) (some 1) := by
  simp only [wPairs, List.map_cons, Int.cast_zero, List.cons.injEq, true_and, List.map_map]
  have : (pyRange 2 (n + 1)).length = n - 1 := by simp [pyRange]
  rw [← this]
  refine (List.map_congr_left fun i _ => ?_).trans List.map_const'
  simp

theorem pairs_length {n : ℕ} (ds : List ℚ) (h : ds ≠ []) : (wPairs n (some ds)).length = ds.length := by
  cases ds with
  | nil => exact absurd rfl h
  | cons x t => simp [wPairs, pyRange]

/-- C65. A TSP that is written is read back: the distances of the selected nodes in the order of the selection, or of all. -/
theorem C65_tsp {env : TsEnv} {fmt : ℚ → List Char} {path : List Char} {n : ℕ} {D : ℕ → ℕ → ℚ} {d : Option (List ℚ)}
    {C L : Option ℚ} {selected sel : List ℕ} (hp : ¬ IsVrp path) (hs : Nodes selected n sel) (h0 : sel ≠ [])
    (hD : Symm D) (hz : ∀ i, D i i = 0) (hN : Numbers env.float fmt fun x => ∃ i ∈ sel, ∃ j ∈ sel, x = D i j) :
    ∃ D', read_TSPLIB_CVRP env (write_TSPLIB_file fmt path n D d C L selected none) =
        .ok ⟨(sel.length : ℤ) - 1, none, none, none, some (sel.length, D'), none, some "EXPLICIT".toList⟩ ∧
      ∀ a b, a < sel.length → b < sel.length → D' a b = D (sel.getD a 0) (sel.getD b 0) := by
  obtain ⟨D', h1, h2⟩ := C34_write_read (n := n) hD hz h0
  have hc : wCvrp path = false := by rw [← Bool.not_eq_true, isVrp_iff]; exact hp
  refine ⟨D', ?_, h2⟩
  rw [read_written (D' := D') (nodes_eq hs) hN.whole (fun i hi j hj => tokenOk hN fun _ => ⟨i, hi, j, hj, rfl⟩)
    (by rw [writeExplicit_nodes hs h0]; exact h1) (fun h => by rw [hc] at h; cases h), hc]
  rfl

/-- C65. With a precision the distances are scaled and lose less than one unit; scaled distances that are whole are exact. -/
theorem C65_tsp_scaled {env : TsEnv} {fmt : ℚ → List Char} {path : List Char} {n : ℕ} {D : ℕ → ℕ → ℚ} {d : Option (List ℚ)}
    {C L : Option ℚ} {selected sel : List ℕ} (p : ℚ) (hp : ¬ IsVrp path) (hs : Nodes selected n sel) (h0 : sel ≠ [])
    (hD : Symm D) (hN : Numbers env.float fmt fun _ => False) :
    ∃ D', read_TSPLIB_CVRP env (write_TSPLIB_file fmt path n D d C L selected (some p)) =
        .ok ⟨(sel.length : ℤ) - 1, none, none, none, some (sel.length, D'), none, some "EXPLICIT".toList⟩ ∧
      ∀ a b, a < sel.length → b < sel.length → a ≠ b →
        |D (sel.getD a 0) (sel.getD b 0) * p - D' a b| < 1 ∧
        (∀ z : ℤ, D (sel.getD a 0) (sel.getD b 0) * p = z → D' a b = z) := by
  obtain ⟨D', h1, h2⟩ := C34_write_read_scaled (n := n) hD h0 p
  have hc : wCvrp path = false := by rw [← Bool.not_eq_true, isVrp_iff]; exact hp
  refine ⟨D', ?_, h2⟩
  rw [read_written (D' := D') (nodes_eq hs) hN.whole (fun i _ j _ => tokenOk hN fun h => by cases h)
    (by rw [writeExplicit_nodes hs h0]; exact h1) (fun h => by rw [hc] at h; cases h), hc]
  rfl

/-- C65. A CVRP that is written with as many demands as nodes is read back: the distances exactly, of the demands and the
capacity the whole parts; the first node gets no demand, and without a capacity the capacity is the number of all nodes. -/
theorem C65_cvrp_partial {env : TsEnv} {fmt : ℚ → List Char} {path : List Char} {n : ℕ} {D : ℕ → ℕ → ℚ} {ds : List ℚ}
    {C L : Option ℚ} {selected sel : List ℕ} (hp : IsVrp path) (hs : Nodes selected n sel) (h0 : sel ≠ [])
    (hl : ds.length = sel.length) (hD : Symm D) (hz : ∀ i, D i i = 0)
    (hN : Numbers env.float fmt fun x => ∃ i ∈ sel, ∃ j ∈ sel, x = D i j) :
    ∃ (D' : ℕ → ℕ → ℚ) (ds' : List ℚ) (c : ℤ), read_TSPLIB_CVRP env (write_TSPLIB_file fmt path n D (some ds) C L selected none) =
        .ok ⟨(sel.length : ℤ) - 1, none, none, some (ds'.map some), some (sel.length, D'), some c, some "EXPLICIT".toList⟩ ∧
      (∀ a b, a < sel.length → b < sel.length → D' a b = D (sel.getD a 0) (sel.getD b 0)) ∧
      ds'.length = sel.length ∧ ds'[0]? = some 0 ∧
      (∀ i, 1 ≤ i → i < sel.length → ∃ z : ℤ, IsWhole (ds.getD i 0) z ∧ ds'[i]? = some (z : ℚ)) ∧
      (∀ q, C = some q → q ≠ 0 → IsWhole q c) ∧ (¬ InUse C → c = n) := by
  obtain ⟨D', h1, h2⟩ := C34_write_read (n := n) hD hz h0
  have hc : wCvrp path = true := isVrp_iff.2 hp
  cases ds with
  | nil => exact absurd (List.length_eq_zero_iff.1 hl.symm) h0
  | cons x t =>
    refine ⟨D', 0 :: t.map (fun q => ((pyInt q : ℤ) : ℚ)), if truthy C then pyInt (C.getD 0) else n, ?_, h2, ?_, rfl, ?_, ?_, ?_⟩
    · rw [read_written (D' := D') (nodes_eq hs) hN.whole (fun i hi j hj => tokenOk hN fun _ => ⟨i, hi, j, hj, rfl⟩)
        (by rw [writeExplicit_nodes hs h0]; exact h1) (fun _ => by rw [pairs_length _ (by simp), hl]), hc]
      simp only [if_true, pairs_demands, List.map_cons, List.map_map, Function.comp_def]
    · simpa using hl
    · intro i hi hi'
      obtain ⟨i, rfl⟩ : ∃ k, i = k + 1 := ⟨i - 1, by omega⟩
      have hit : i < t.length := by rw [← hl, List.length_cons] at hi'; omega
      refine ⟨pyInt t[i], ?_, ?_⟩
      · rw [List.getD_cons_succ, List.getD_eq_getElem _ _ hit]
        exact isWhole_pyInt _
      · rw [List.getElem?_cons_succ, List.getElem?_map, List.getElem?_eq_getElem hit]
        rfl
    · rintro q rfl hq
      rw [if_pos (truthy_iff.2 ⟨q, rfl, hq⟩)]
      exact isWhole_pyInt q
    · intro h
      rw [if_neg (fun h' => h (truthy_iff.1 h'))]

/-- C65. Whole demands, none at the depot, and a whole capacity: the problem that is read is the problem that was written. -/
theorem C65_exact {env : TsEnv} {fmt : ℚ → List Char} {path : List Char} {n : ℕ} {D : ℕ → ℕ → ℚ} {zs : List ℤ} {c : ℤ}
    {L : Option ℚ} (hp : IsVrp path) (hn : 1 ≤ n) (hl : zs.length = n) (hd : zs[0]? = some 0) (hc : c ≠ 0)
    (hD : Symm D) (hz : ∀ i, D i i = 0)
    (hN : Numbers env.float fmt fun x => ∃ i < n, ∃ j < n, x = D i j) :
    ∃ D', read_TSPLIB_CVRP env (write_TSPLIB_file fmt path n D (some (zs.map fun z : ℤ => (z : ℚ))) (some c) L [] none) =
        .ok ⟨(n : ℤ) - 1, none, none, some (zs.map fun z : ℤ => some (z : ℚ)), some (n, D'), some c, some "EXPLICIT".toList⟩ ∧
      ∀ a b, a < n → b < n → D' a b = D a b := by
  have hlen : (List.range n).length = n := List.length_range
  have hget : ∀ a, a < n → (List.range n).getD a 0 = a := by
    intro a ha
    rw [List.getD_eq_getElem _ _ (by rw [hlen]; exact ha), List.getElem_range]
  obtain ⟨D', ds', c', h1, h2, h3, h4, h5, h6, -⟩ := C65_cvrp_partial (env := env) (fmt := fmt) (path := path) (n := n) (D := D)
    (ds := zs.map fun z : ℤ => (z : ℚ)) (C := some (c : ℚ)) (L := L) (selected := []) (sel := List.range n) hp (.inr ⟨rfl, rfl⟩)
    (by intro h; rw [h] at hlen; simp at hlen; omega) (by rw [List.length_map, hl, hlen]) hD hz
    (by simpa only [List.mem_range] using hN)
  rw [hlen] at h1 h2 h3 h5
  have whole : ∀ z : ℤ, IsWhole (z : ℚ) z := fun z => ⟨by simp, le_refl _⟩
  obtain rfl : c' = c := isWhole_unique (h6 c rfl (by exact_mod_cast hc)) (whole c)
  have hds : ds' = zs.map fun z : ℤ => (z : ℚ) := by
    refine List.ext_getElem? fun i => ?_
    by_cases hi : i < n
    · rw [List.getElem?_map, List.getElem?_eq_getElem (l := zs) (by omega)]
      by_cases h : i = 0
      · subst h
        rw [h4]
        rw [List.getElem?_eq_getElem (by omega)] at hd
        injection hd with hd
        rw [hd]; simp
      · obtain ⟨z, hz1, hz2⟩ := h5 i (by omega) hi
        rw [hz2]
        rw [List.getD_eq_getElem _ _ (by rw [List.length_map]; omega), List.getElem_map] at hz1
        rw [isWhole_unique hz1 (whole _)]
        rfl
    · rw [List.getElem?_eq_none (by omega), List.getElem?_eq_none (by rw [List.length_map]; omega)]
  refine ⟨D', ?_, fun a b ha hb => by rw [h2 a b ha hb, hget a ha, hget b hb]⟩
  rw [h1, hds, List.map_map]
  rfl

/-- C65. Without demands every customer has the demand one. -/
theorem C65_ones {env : TsEnv} {fmt : ℚ → List Char} {path : List Char} {n : ℕ} {D : ℕ → ℕ → ℚ} {C L : Option ℚ}
    (hp : IsVrp path) (hn : 1 ≤ n) (hD : Symm D) (hz : ∀ i, D i i = 0)
    (hN : Numbers env.float fmt fun x => ∃ i < n, ∃ j < n, x = D i j) :
    ∃ D' c, read_TSPLIB_CVRP env (write_TSPLIB_file fmt path n D none C L [] none) =
        .ok ⟨(n : ℤ) - 1, none, none, some (some 0 :: List.replicate (n - 1) (some 1)), some (n, D'), some c,
          some "EXPLICIT".toList⟩ ∧
      (∀ a b, a < n → b < n → D' a b = D a b) ∧ (∀ q, C = some q → q ≠ 0 → IsWhole q c) ∧ (¬ InUse C → c = n) := by
  have hlen : (pyRange 0 n).length = n := by simp [pyRange]
  obtain ⟨D', h1, h2⟩ := C34_write_read_all hn hD hz
  have hm : ∀ i, i ∈ pyRange 0 n → i < n := by intro i hi; simp [pyRange] at hi; exact hi
  have key := read_written (env := env) (fmt := fmt) (precision := none) (D := D) (D' := D') (path := path) (n := n) (d := none)
    (C := C) (L := L) (selected := []) (sel := pyRange 0 n) rfl hN.whole
    (fun i hi j hj => tokenOk hN fun _ => ⟨i, hm i hi, j, hm j hj, rfl⟩) (by rw [hlen]; exact h1)
    (fun _ => by
      have := congrArg List.length (pairs_ones hn)
      rw [List.length_map] at this
      rw [this, hlen, List.length_cons, List.length_replicate]
      omega)
  refine ⟨D', if truthy C then pyInt (C.getD 0) else n, ?_, h2, ?_, ?_⟩
  · rw [key, isVrp_iff.2 hp, hlen]
    simp only [if_true, pairs_ones hn]
  · rintro q rfl hq
    rw [if_pos (truthy_iff.2 ⟨q, rfl, hq⟩)]
    exact isWhole_pyInt q
  · intro h
    rw [if_neg (fun h' => h (truthy_iff.1 h'))]

/-- C65. The limit on the route cost of a file that is written is read back as its whole part, and there is no fleet size and no
service time; a TSP has no limit. -/
theorem C65_limit {float : List Char → Py ℚ} {fmt : ℚ → List Char} {precision : Option ℚ} {D : ℕ → ℕ → ℚ} {path : List Char}
    {n : ℕ} {d : Option (List ℚ)} {C L : Option ℚ} {selected sel : List ℕ} (hs : Nodes selected n sel)
    (hN : Numbers float fmt fun x => precision = none ∧ ∃ i ∈ sel, ∃ j ∈ sel, x = D i j) :
    ∃ l : Option ℚ, read_TSBLIB_additional_constraints float (write_TSPLIB_file fmt path n D d C L selected precision) =
        .ok (none, l, none) ∧
      (IsVrp path → ∀ q, L = some q → q ≠ 0 → ∃ z : ℤ, IsWhole q z ∧ l = some (z : ℚ)) ∧
      (¬ IsVrp path ∨ ¬ InUse L → l = none) := by
  refine ⟨_, limits_written (nodes_eq hs) (fun i hi j hj => tokenOk hN fun h => ⟨h, i, hi, j, hj, rfl⟩), ?_, ?_⟩
  · rintro hp q rfl hq
    rw [if_pos ⟨isVrp_iff.2 hp, truthy_iff.2 ⟨q, rfl, hq⟩⟩]
    exact ⟨_, isWhole_pyInt q, rfl⟩
  · intro h
    rw [if_neg]
    rintro ⟨h1, h2⟩
    rcases h with h | h
    · exact h (isVrp_iff.1 h1)
    · exact h (truthy_iff.1 h2)

theorem whole_le {x : ℚ} {z : ℤ} (h : IsWhole x z) (hx : 0 ≤ x) : (z : ℚ) ≤ x := by
  have := h.2
  rw [abs_of_nonneg hx] at this
  exact (le_abs_self _).trans this

theorem whole_fits {ds ds' : List ℚ} {q : ℚ} {c : ℤ} (h0 : ∀ x ∈ ds, 0 ≤ x) (hc : IsWhole q c)
    (hw : ∀ i, 1 ≤ i → i < ds.length → ∃ z : ℤ, IsWhole (ds.getD i 0) z ∧ ds'[i]? = some (z : ℚ)) (route : List ℕ)
    (hr : ∀ i ∈ route, 1 ≤ i ∧ i < ds.length) (hfit : (route.map fun i => ds.getD i 0).sum ≤ q) :
    (route.map fun i => ds'.getD i 0).sum ≤ c := by
  have key : ∀ (r : List ℕ), (∀ i ∈ r, 1 ≤ i ∧ i < ds.length) → ∃ s : ℤ, (r.map fun i => ds'.getD i 0).sum = s ∧
      (s : ℚ) ≤ (r.map fun i => ds.getD i 0).sum := by
    intro r
    induction r with
    | nil => intro _; exact ⟨0, by simp, by simp⟩
    | cons i r ih =>
      intro h
      obtain ⟨s, h1, h2⟩ := ih fun j hj => h j (List.mem_cons_of_mem _ hj)
      have hi := h i (by simp)
      obtain ⟨z, hz, hz'⟩ := hw i hi.1 hi.2
      refine ⟨z + s, ?_, ?_⟩
      · rw [List.map_cons, List.sum_cons, h1, List.getD_eq_getElem?_getD, hz']
        push_cast; rfl
      · rw [List.map_cons, List.sum_cons]
        have : (z : ℚ) ≤ ds.getD i 0 := whole_le hz (by
          rw [List.getD_eq_getElem _ _ hi.2]; exact h0 _ (List.getElem_mem hi.2))
        push_cast
        linarith
  obtain ⟨s, h1, h2⟩ := key route hr
  rw [h1]
  have hs : (s : ℚ) ≤ q := h2.trans hfit
  have h3 : q < c + 1 := by
    have := hc.1
    rw [abs_lt] at this
    linarith
  have : s < c + 1 := by exact_mod_cast hs.trans_lt h3
  exact_mod_cast Int.lt_add_one_iff.1 this

/-- C65. Customers that fit on a route of the problem that is written also fit on it in the problem that is read: cutting off the
fractions makes no route infeasible. (It may make an infeasible one feasible, see `C65_fraction_false`.) -/
theorem C65_fits {env : TsEnv} {fmt : ℚ → List Char} {path : List Char} {n : ℕ} {D : ℕ → ℕ → ℚ} {ds : List ℚ} {q : ℚ}
    {L : Option ℚ} (hp : IsVrp path) (hn : 1 ≤ n) (hl : ds.length = n) (h0 : ∀ x ∈ ds, 0 ≤ x) (hq : q ≠ 0)
    (hD : Symm D) (hz : ∀ i, D i i = 0) (hN : Numbers env.float fmt fun x => ∃ i < n, ∃ j < n, x = D i j) :
    ∃ (P : TsProblem) (ds' : List ℚ) (c : ℤ),
      read_TSPLIB_CVRP env (write_TSPLIB_file fmt path n D (some ds) (some q) L [] none) = .ok P ∧
      P.demands = some (ds'.map some) ∧ P.C = some c ∧
      ∀ route : List ℕ, (∀ i ∈ route, 1 ≤ i ∧ i < n) → (route.map fun i => ds.getD i 0).sum ≤ q →
        (route.map fun i => ds'.getD i 0).sum ≤ c := by
  have hlen : (List.range n).length = n := List.length_range
  obtain ⟨D', ds', c, h1, -, -, -, h5, h6, -⟩ := C65_cvrp_partial (env := env) (fmt := fmt) (path := path) (n := n) (D := D)
    (ds := ds) (C := some q) (L := L) (selected := []) (sel := List.range n) hp (.inr ⟨rfl, rfl⟩)
    (by intro h; rw [h] at hlen; simp at hlen; omega) (by rw [hl, hlen]) hD hz
    (by simpa only [List.mem_range] using hN)
  refine ⟨_, ds', c, h1, rfl, rfl, fun route hr hfit => ?_⟩
  subst hl
  exact whole_fits h0 (h6 q rfl hq) (by rwa [hlen] at h5) route hr hfit

/-- C65. A CVRP with fewer selected nodes than demands (or than nodes, if there are no demands) is written, but reading it raises
an `IndexError`. -/
theorem C65_selection_raises {env : TsEnv} {fmt : ℚ → List Char} {path : List Char} {n : ℕ} {D : ℕ → ℕ → ℚ}
    {d : Option (List ℚ)} {C L : Option ℚ} {sel : List ℕ} (hp : IsVrp path) (h0 : sel ≠ [])
    (hl : (∃ ds, d = some ds ∧ sel.length < ds.length) ∨ (d = none ∧ sel.length < n)) (hD : Symm D) (hz : ∀ i, D i i = 0)
    (hN : Numbers env.float fmt fun x => ∃ i ∈ sel, ∃ j ∈ sel, x = D i j) :
    read_TSPLIB_CVRP env (write_TSPLIB_file fmt path n D d C L sel none) = .error .indexError := by
  have hlen : sel.length < (wPairs n d).length := by
    rcases hl with ⟨ds, rfl, h⟩ | ⟨rfl, h⟩
    · rwa [pairs_length ds (by rintro rfl; simp at h)]
    · have := congrArg List.length (pairs_ones (n := n) (by omega))
      rw [List.length_map] at this
      rw [this, List.length_cons, List.length_replicate]
      omega
  obtain ⟨D', h1, -⟩ := C34_write_read (n := n) hD hz h0
  have ht : ∀ i ∈ sel, ∀ j ∈ sel, TokenOk env.float fmt none (D i j) :=
    fun i hi j hj => tokenOk hN fun _ => ⟨i, hi, j, hj, rfl⟩
  have hsel : sel = if sel = [] then pyRange 0 n else sel := by rw [if_neg h0]
  unfold readExplicit at h1
  cases hw : readWeights .upperRow sel.length (writeExplicit n D sel none) (ijStart .upperRow) (fun _ _ => 0) with
  | error e => rw [hw] at h1; cases h1
  | ok q =>
    obtain ⟨p, D1⟩ := q
    unfold read_TSPLIB_CVRP
    rw [kinds_written hsel ht, tsLoop_written ht (by rw [wOut_eq n D sel sel none hsel]; exact hw), isVrp_iff.2 hp]
    simp only [if_true]
    rw [List.map_append, List.map_append, List.append_assoc, List.append_assoc, List.map_map]
    have k1 : tsKind ("DEMAND_SECTION".toList ++ ['\n']) = .head .demands := by decide +kernel
    rw [List.map_cons, k1, List.map_nil, List.singleton_append]
    generalize (if truthy C then pyInt (C.getD 0) else (n : ℤ)) = c
    rw [tsLoop_step (s' := { tsHeadSt sel.length (some c) with ij := p, D := some (sel.length, D1), sec := .demands, pos := 0, demands := some ([] ++ List.replicate sel.length none) }) (by
        simp only [tsLine, tsSetSection, tsHeadSt, Int.sub_add_cancel, Int.toNat_natCast]; rfl)]
    simp only [Function.comp_def]
    rw [tsLoop_pairs_over hN.whole (wPairs n d) (pre := []) (k := sel.length) rfl rfl rfl hlen]

/-! ## Concrete cases -/

/-- Whole numbers only. -/
def egFloat (w : List Char) : Py ℚ := (parseInt w).map fun z => (z : ℚ)

def egFmt (x : ℚ) : List Char := showInt (pyInt x)

theorem eg_numbers (S : ℚ → Prop) (hS : ∀ x, S x → ∃ z : ℤ, x = z) : Numbers egFloat egFmt S where
  whole z := by unfold egFloat; rw [parseInt_showInt]; rfl
  back x hx := by
    obtain ⟨z, rfl⟩ := hS x hx
    have : pyInt (z : ℚ) = z := by simp [pyInt]
    unfold egFloat egFmt
    rw [this, parseInt_showInt]; rfl
  some x _ := (word_showInt _).1
  plain x _ c hc := showInt_all hc

def egEnv : TsEnv := ⟨egFloat, fun x => x, fun _ _ => .error .ioError⟩

/-- A name of a CVRP. -/
def egPath : List Char := "a.VRP".toList

theorem egPath_vrp : IsVrp egPath := ⟨['a'], ".VRP".toList, by decide, by decide⟩

/-- Nodes on a line at 0, 3, 5 and 9. -/
def egD (i j : ℕ) : ℚ :=
  let x : ℕ → ℤ := fun k => if k = 0 then 0 else if k = 1 then 3 else if k = 2 then 5 else 9
  ((|x i - x j| : ℤ) : ℚ)

theorem egD_symm : Symm egD := fun i j => by unfold egD; simp only [abs_sub_comm]

theorem egD_zero (i : ℕ) : egD i i = 0 := by simp [egD]

theorem egD_whole (P : ℚ → Prop) (h : ∀ x, P x → ∃ i j, x = egD i j) : Numbers egFloat egFmt P :=
  eg_numbers P fun x hx => by
    obtain ⟨i, j, rfl⟩ := h x hx
    exact ⟨_, rfl⟩

example : ∃ P D', read_TSPLIB_CVRP egEnv (write_TSPLIB_file egFmt "x.tsp".toList 4 egD none none none [3, 1, 0] none) = .ok P ∧
    P.size = 2 ∧ P.D = some (3, D') ∧ D' 0 1 = egD 3 1 ∧ D' 1 2 = egD 1 0 := by
  obtain ⟨D', h1, h2⟩ := C65_tsp (env := egEnv) (fmt := egFmt) (path := "x.tsp".toList) (n := 4) (D := egD) (d := none) (C := none)
    (L := none) (selected := [3, 1, 0]) (sel := [3, 1, 0]) (by rw [← isVrp_iff]; decide) (.inl ⟨by simp, rfl⟩) (by simp)
    egD_symm egD_zero (egD_whole _ fun _ ⟨i, _, j, _, h⟩ => ⟨i, j, h⟩)
  exact ⟨_, D', h1, rfl, rfl, h2 0 1 (by decide) (by decide), h2 1 2 (by decide) (by decide)⟩

example : ∃ P D', read_TSPLIB_CVRP egEnv (write_TSPLIB_file egFmt egPath 4 egD (some ([0, 4, 3, 2].map fun z : ℤ => (z : ℚ)))
      (some ((7 : ℤ) : ℚ)) (some 20) [] none) = .ok P ∧
    P.size = 3 ∧ P.demands = some [some 0, some 4, some 3, some 2] ∧ P.C = some 7 ∧ P.D = some (4, D') ∧ D' 1 3 = egD 1 3 := by
  obtain ⟨D', h1, h2⟩ := C65_exact (env := egEnv) (fmt := egFmt) (path := egPath) (n := 4) (D := egD) (zs := [0, 4, 3, 2]) (c := 7)
    (L := some 20) egPath_vrp (by decide) rfl rfl (by decide) egD_symm egD_zero
    (egD_whole _ fun _ ⟨i, _, j, _, h⟩ => ⟨i, j, h⟩)
  exact ⟨_, D', h1, rfl, by simp, rfl, rfl, h2 1 3 (by decide) (by decide)⟩

example : read_TSPLIB_CVRP egEnv (write_TSPLIB_file egFmt egPath 4 egD (some [0, 4, 3, 2]) (some 7) none [0, 2, 3] none) =
    .error .indexError :=
  C65_selection_raises egPath_vrp (by simp) (.inl ⟨_, rfl, by decide⟩) egD_symm egD_zero
    (egD_whole _ fun _ ⟨i, _, j, _, h⟩ => ⟨i, j, h⟩)

/-- The file is what one expects. -/
example : write_TSPLIB_file egFmt egPath 3 egD (some [0, 4, 3]) (some 7) (some (41 / 2)) [] none =
    ("NAME: temporary\nTYPE: CVRP\nCAPACITY: 7\nDISTANCE: 20\nCOMMENT: temporary CVRP or TSP problem\nDIMENSION: 3\n" ++
      "EDGE_WEIGHT_TYPE: EXPLICIT\nEDGE_WEIGHT_FORMAT: UPPER_ROW\nEDGE_WEIGHT_SECTION\n3 5 \n2 \n" ++
      "DEMAND_SECTION\n1 0\n2 4\n3 3\nDEPOT_SECTION\n1\n-1\nEOF").toList := by decide +kernel

example : read_TSBLIB_additional_constraints egFloat
    (write_TSPLIB_file egFmt egPath 3 egD (some [0, 4, 3]) (some 7) (some (41 / 2)) [] none) = .ok (none, some 20, none) := by
  decide +kernel

/-! ## C65: what is not read back -/

/-- What a test can look at. -/
def egView (r : Py TsProblem) : Option (Option (List (Option ℚ)) × Option ℤ × ℚ × ℚ) :=
  match r with
  | .ok P => some (P.demands, P.C, match P.D with | some (_, D) => (D 0 1, D 0 2) | none => (0, 0))
  | .error _ => none

/-- C65 is false for a selection of nodes of a CVRP: a selection in another order changes the order of the distances, but not that
of the demands. Here the second node of the file is node 2 by its distances and node 1 by its demand. -/
theorem C65_selection_false :
    egView (read_TSPLIB_CVRP egEnv (write_TSPLIB_file egFmt egPath 3 egD (some [0, 4, 3]) (some 7) none [0, 2, 1] none)) =
      some (some [some 0, some 4, some 3], some 7, egD 0 2, egD 0 1) ∧ egD 0 2 ≠ egD 0 1 := by decide +kernel

/-- C65 is false for fractions: two demands of 0.9 do not fit in a capacity of 1, but do in the problem that is read. -/
theorem C65_fraction_false :
    egView (read_TSPLIB_CVRP egEnv (write_TSPLIB_file egFmt egPath 3 egD (some [0, 9 / 10, 9 / 10]) (some 1) none [] none)) =
      some (some [some 0, some 0, some 0], some 1, 3, 5) ∧ ¬ (9 / 10 + 9 / 10 : ℚ) ≤ 1 ∧ (0 + 0 : ℚ) ≤ 1 := by decide +kernel

/-- C65 is false without a capacity: the number of nodes is written in its place, so demands without any limit get one. -/
theorem C65_capacity_false :
    egView (read_TSPLIB_CVRP egEnv (write_TSPLIB_file egFmt egPath 3 egD (some [0, 4, 3]) none none [] none)) =
      some (some [some 0, some 4, some 3], some 3, 3, 5) ∧ ¬ (4 : ℚ) ≤ 3 := by decide +kernel

/-- C65 is false for the limit on the route cost with a precision: the distances are scaled, the limit is not. A route to node 1
and back has the cost 6 and is within a limit of 10, but not in the problem that is read. -/
theorem C65_scaled_limit_false :
    egView (read_TSPLIB_CVRP egEnv (write_TSPLIB_file egFmt egPath 3 egD (some [0, 4, 3]) (some 7) (some 10) [] (some 10))) =
      some (some [some 0, some 4, some 3], some 7, 30, 50) ∧
    read_TSBLIB_additional_constraints egFloat
      (write_TSPLIB_file egFmt egPath 3 egD (some [0, 4, 3]) (some 7) (some 10) [] (some 10)) = .ok (none, some 10, none) ∧
    egD 0 1 + egD 1 0 ≤ 10 ∧ ¬ (30 + 30 : ℚ) ≤ 10 := by decide +kernel

end Verif
