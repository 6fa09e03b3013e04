import Verif.Props.CallInit
import Verif.Props.Cli
import Verif.Props.CliBatch

/-! # C64: from the heuristics to what is reported -/

namespace Verif

open Spec

namespace Spec

/-- How the call of the heuristic ends. -/
def Outcome (e : CallEnv) (a : Algo) (single mk : Bool) (out : RunOut) : Prop :=
  ∃ F, ∀ fuel ≥ F, call_init e a single mk fuel = some out

/-- The heuristic can be used with the options: it does without the integer programming solver, it does not refuse to minimise
the number of routes if it is asked to, and the Lagrangean relaxation has a capacity and a demand to relax. -/
structure CanCall (e : CallEnv) (a : Algo) (mk : Bool) : Prop where
  noSolver : NoSolver a
  routes : mk = true → ¬ Refuses a
  relaxed : a = .lr3o → InUse e.C ∧ ∃ i, i < e.N ∧ 0 < e.d i

/-- A task of the batch on an instance as the heuristics are made for: the call is that of the heuristic on the
distances with the service time. -/
structure TaskCalled (o : CliOpts) (single mk : Bool) (t : Task) (a : Algo) (e : CallEnv) : Prop where
  ok : CallOk e
  usable : CanCall e a mk
  name : t.2.1 = (a.abbrev, a.name)
  out : Outcome e a single mk t.2.2
  size : e.N = t.1.N
  costs : usedDc o t.1 e.D
  dem : e.d = t.1.d
  cap : e.C = t.1.C
  len : e.L = t.1.L
  home : t.1.D 0 0 = 0
  symm : Symm t.1.D

end Spec

theorem outcome_good {e : CallEnv} (h : CallOk e) {a : Algo} {single mk : Bool} (hu : CanCall e a mk) {out : RunOut}
    (ho : Outcome e a single mk out) :
    ∃ sol, Solves e.N e.D e.d e.C e.L sol ∧ (out = .ret (some sol) ∨ a = .wh ∧ out = .interrupted (some sol)) := by
  obtain ⟨sol, h1, h2, h3, h4, h5⟩ := C63_partial h hu.noSolver single hu.routes hu.relaxed
  obtain ⟨F, hF⟩ := ho
  refine ⟨sol, ⟨h1, h2, h3, fun _ => h4⟩, ?_⟩
  rcases h5 with ⟨F', h5⟩ | ⟨ha, F', h5⟩
  · left
    have e1 := hF (max F F') (le_max_left _ _)
    rw [h5 (max F F') (le_max_right _ _)] at e1
    simpa using e1.symm
  · right
    have e1 := hF (max F F') (le_max_left _ _)
    rw [h5 (max F F') (le_max_right _ _)] at e1
    exact ⟨ha, by simpa using e1.symm⟩

theorem normal_keeps {N : ℕ} {D : ℕ → ℕ → ℚ} (hD : Symm D) {d : ℕ → ℚ} {C L : Option ℚ} {s m : List ℕ} (h : NormalForm s m) :
    (Covers N s → Covers N m) ∧ (Feasible D d C L s → Feasible D d C L m) := by
  refine ⟨fun hc => ?_, feas_sameRoutes hD h.same⟩
  have := sameRoutes_flatten h.same
  rw [blocks_flatten, blocks_flatten] at this
  exact this.trans hc

theorem solves_lt {N : ℕ} {D : ℕ → ℕ → ℚ} {d : ℕ → ℚ} {C L : Option ℚ} {s : List ℕ} (h : Solves N D d C L s) (hN : 0 < N) :
    ∀ x ∈ s, x < N := by
  intro x hx
  by_cases h0 : x = 0
  · omega
  · have : x ∈ customers s := by simp [customers, hx, h0]
    have := h.covers.mem_iff.1 this
    rw [List.mem_range'_1] at this
    omega

theorem solves_given {N : ℕ} {D : ℕ → ℕ → ℚ} {d : ℕ → ℚ} {C L : Option ℚ} {s : List ℕ} (h : Solves N D d C L s) :
    given (.ret (some s)) = some s ∧ given (.interrupted (some s)) = some s := by
  cases s with
  | nil => have := h.ends.1; simp at this
  | cons a t => exact ⟨rfl, rfl⟩

theorem usedDc_unique {o : CliOpts} {p : CliFile} {D1 D2 : ℕ → ℕ → ℚ} (h1 : usedDc o p D1) (h2 : usedDc o p D2) : D1 = D2 := by
  unfold usedDc at h1 h2
  by_cases hst : p.st = none ∨ p.st = some 0
  · rw [if_pos hst] at h1 h2
    rw [h1, h2]
  · rw [if_neg hst] at h1 h2
    obtain ⟨st, e1, e2⟩ := h1
    obtain ⟨st', e3, e4⟩ := h2
    rw [e1] at e3
    cases e3
    rw [e2] at e4
    cases e4
    rfl

/-- **C64**: several runs of a heuristic on an instance as the heuristics are made for. What is returned serves each customer
once and keeps the limits; it is in normal form and the first of the best of the runs. (The runs may differ in what is random.) -/
theorem C64_best (i : CliInst) (a : Algo) (single mk : Bool) {n : ℕ} (hn : 0 < n) (v : ℤ) (env : ℕ → CallEnv) (runs : ℕ → RunOut)
    (ha : a ≠ .wh) (hok : ∀ k < n, CallOk (env k) ∧ CanCall (env k) a mk ∧ Outcome (env k) a single mk (runs k) ∧
      (env k).N = i.N ∧ (env k).D = i.Dc ∧ (env k).d = i.d ∧ (env k).C = i.C ∧ (env k).L = i.L) :
    ∃ ms m shown, List.Forall₂ NormalForm ((List.range n).filterMap fun k => given (runs k)) ms ∧ ms.length = n ∧
      FirstBest i.Dc mk ms m ∧ Covers i.N m ∧ Feasible i.Dc i.d i.C i.L m ∧
      read_and_solve i mk n v runs = .ok (.ret m (cost i.D m) (cost i.Dc m) shown) := by
  have hrun : ∀ k < n, ∃ s, Solves i.N i.Dc i.d i.C i.L s ∧ runs k = .ret (some s) := by
    intro k hk
    obtain ⟨h1, h2, h3, e1, e2, e3, e4, e5⟩ := hok k hk
    obtain ⟨s, h4, h5⟩ := outcome_good h1 h2 h3
    rw [e1, e2, e3, e4, e5] at h4
    rcases h5 with h5 | ⟨h5, -⟩
    · exact ⟨s, h4, h5⟩
    · exact absurd h5 ha
  have hg : ∀ k < n, ∀ s, given (runs k) = some s → Solves i.N i.Dc i.d i.C i.L s := by
    intro k hk s hs
    obtain ⟨s', h1, h2⟩ := hrun k hk
    rw [h2, (solves_given h1).1] at hs
    cases hs
    exact h1
  obtain ⟨h1, h2, h3, e1, e2, e3, e4, e5⟩ := hok 0 hn
  have hN : 0 < i.N := by have := h1.size; omega
  have hplain : PlainData i.Dc i.d i.C i.L :=
    ⟨by rw [← e2]; exact h1.metric.self 0, by rw [← e3]; exact h1.dem0, by rw [← e4]; exact h1.cap, by rw [← e5]; exact h1.len⟩
  obtain ⟨ms, m, shown, h4, h5, -, h6⟩ := C59_best i hplain mk n v runs
    (fun k hk => by obtain ⟨s, -, h⟩ := hrun k hk; exact ⟨_, h⟩)
    ⟨0, hn, by
      obtain ⟨s, h, h'⟩ := hrun 0 hn
      exact ⟨s, by rw [h']; exact (solves_given h).1⟩⟩
    (fun _ k hk s hs => le_trans (solves_routes_le (hg k hk s hs)) (Nat.sub_le _ _))
    (fun _ => ⟨hN, fun k hk s hs => solves_lt (hg k hk s hs) hN⟩)
  have hlen : ((List.range n).filterMap fun k => given (runs k)).length = n := by
    rw [List.length_filterMap_eq_countP, List.countP_eq_length.2, List.length_range]
    intro k hk
    obtain ⟨s, h, h'⟩ := hrun k (List.mem_range.1 hk)
    rw [h', (solves_given h).1]
    rfl
  obtain ⟨s, hs, hnf⟩ : ∃ s, (∃ k < n, given (runs k) = some s) ∧ NormalForm s m := by
    obtain ⟨-, pre, post, hms, -⟩ := h5
    have hm : m ∈ ms := by rw [hms]; simp
    obtain ⟨j, hj, rfl⟩ := List.getElem_of_mem hm
    have hj' : j < ((List.range n).filterMap fun k => given (runs k)).length := by rw [h4.length_eq]; exact hj
    refine ⟨_, ?_, h4.get hj' hj⟩
    obtain ⟨k, hk, hk'⟩ := List.mem_filterMap.1 (List.getElem_mem hj')
    exact ⟨k, List.mem_range.1 hk, hk'⟩
  obtain ⟨k, hk, hs⟩ := hs
  have hsol := hg k hk s hs
  have hser : Serviceable i.N i.Dc i.d i.C i.L := by rw [← e1, ← e2, ← e3, ← e4, ← e5]; exact h1.serviceable
  have hsym : Symm i.Dc := by rw [← e2]; exact h1.metric.symm
  have hk2 := normal_keeps (N := i.N) (d := i.d) (C := i.C) (L := i.L) hsym hnf
  exact ⟨ms, m, shown, h4, by rw [← h4.length_eq, hlen], h5, hk2.1 hsol.covers, hk2.2 (hsol.feasible hser), h6⟩

/-- **C64**: the batch with the short output, on instances as the heuristics are made for. There is one line for each instance and
heuristic (up to the first that is interrupted, which can only be that of Wren and Holliday), each with a solution, and
each solution is feasible. -/
theorem C64_lines {o : CliOpts} (hm : o.minimal = true) (hf : o.fmt ≠ some .round) (hsim : o.simulate = false) (algos : ℕ)
    (single mk : Bool) (files : List (CliFile × List ((String × String) × RunOut)))
    (h : ∀ t ∈ tasks files, ∃ a e, TaskCalled o single mk t a e) :
    ∃ F, ∀ fuel ≥ F, ∃ s, cliMain fuel o algos files = .ok (some (s, [])) ∧
      List.Forall₂ (fun t r => ∃ q K, r = .line t.2.1.1 t.1.bn true q K (stops o t)) (upTo (stops o) (tasks files)) s.reports ∧
      ((∀ t ∈ tasks files, t.2.1.1 ≠ "wh") → upTo (stops o) (tasks files) = tasks files) := by
  have hfound : ∀ t ∈ tasks files, ∀ a e, TaskCalled o single mk t a e → ∃ s, found o t = some s ∧
      Solves e.N e.D e.d e.C e.L s ∧ (stops o t = true → a = .wh) := by
    intro t ht a e hc
    obtain ⟨s, h1, h2⟩ := outcome_good hc.ok hc.usable hc.out
    refine ⟨s, ?_, h1, ?_⟩
    · rcases h2 with h2 | ⟨-, h2⟩ <;> simp only [found, hsim, Bool.false_eq_true, if_false, h2, solves_given h1]
    · rcases h2 with h2 | ⟨h2, -⟩
      · intro hs
        simp [stops, h2] at hs
      · exact fun _ => h2
  have htask : ∀ t ∈ tasks files, TaskOk o t := by
    intro t ht
    obtain ⟨a, e, hc⟩ := h t ht
    obtain ⟨s, h1, h2, -⟩ := hfound t ht a e hc
    have hN : 0 < e.N := by have := hc.ok.size; omega
    refine ⟨hc.home, by rw [← hc.dem]; exact hc.ok.dem0, by rw [← hc.cap]; exact hc.ok.cap, by rw [← hc.len]; exact hc.ok.len, ?_,
      fun _ => ⟨hc.symm, ?_⟩⟩
    · intro s' hs'
      rw [h1] at hs'
      cases hs'
      rw [← hc.size]
      exact ⟨hN, solves_lt h2 hN⟩
    · intro s' hs'
      rw [h1] at hs'
      cases hs'
      exact h2.covers.nodup_iff.2 List.nodup_range'
  obtain ⟨F, hF⟩ := C60_lines hm hf algos files htask
  refine ⟨F, fun fuel hfu => ?_⟩
  obtain ⟨s, h1, h2⟩ := hF fuel hfu
  refine ⟨s, h1, ?_, ?_⟩
  · refine List.forall₂_iff_get.2 ⟨h2.length_eq, fun j hj hj' => ?_⟩
    have h3 := (List.forall₂_iff_get.1 h2).2 j hj hj'
    have hmem : (upTo (stops o) (tasks files)).get ⟨j, hj⟩ ∈ tasks files := (upTo_sublist _ _).subset (List.get_mem _ _)
    generalize (upTo (stops o) (tasks files)).get ⟨j, hj⟩ = t at h3 hmem
    obtain ⟨a, e, hc⟩ := h t hmem
    obtain ⟨s', k1, k2, -⟩ := hfound t hmem a e hc
    simp only [Reported, k1] at h3
    obtain ⟨m, feas, Dc, g1, g2, g3, g4⟩ := h3
    obtain rfl := usedDc_unique hc.costs g1
    have hfe := k2.feasible hc.ok.serviceable
    rw [hc.dem, hc.cap, hc.len] at hfe
    have hcov := k2.covers
    rw [hc.size] at hcov
    have : Covers t.1.N m ∧ Feasible e.D t.1.d t.1.C t.1.L m := by
      by_cases hp : o.post = []
      · have := g2.2
        rw [if_pos hp] at this
        have hk := normal_keeps (N := t.1.N) (d := t.1.d) (C := t.1.C) (L := t.1.L) hc.ok.metric.symm this
        exact ⟨hk.1 hcov, hk.2 hfe⟩
      · obtain ⟨c1, c2, -⟩ := C60_post g1 hc.home (k2.covers.nodup_iff.2 List.nodup_range') k2.ends g2 hp
        exact ⟨c1.trans hcov, c2 hfe⟩
    rw [g4.2 this] at g3
    exact ⟨_, _, g3⟩
  · intro hw
    have key : ∀ l : List Task, (∀ t ∈ l, stops o t = false) → upTo (stops o) l = l := by
      intro l
      induction l with
      | nil => intro _; rfl
      | cons x l ih =>
        intro hl
        rw [upTo, if_neg (by rw [hl x (by simp)]; simp), ih fun t ht => hl t (by simp [ht])]
    refine key _ fun t ht => ?_
    obtain ⟨a, e, hc⟩ := h t ht
    obtain ⟨-, -, -, k3⟩ := hfound t ht a e hc
    cases hst : stops o t with
    | false => rfl
    | true =>
      obtain rfl := k3 hst
      have := hw t ht
      rw [hc.name] at this
      exact absurd rfl this

/-! ## Instances -/

/-- The instance `ceEnv` as a file. -/
def ceFile : CliFile :=
  { bn := "line", N := 5, ty := .float, D := ceLine, d := fun n => if n = 0 then 0 else 1, C := some 2, L := some 8, st := none }

theorem ce_out : Outcome (ceEnv (some 2) (some 8)) .ps false false (.ret (some [0, 1, 2, 0, 3, 4, 0])) :=
  ⟨0, fun _ _ => by
    have : callPs (ceEnv (some 2) (some 8)) false = some (.ret (some [0, 1, 2, 0, 3, 4, 0])) := by decide +kernel
    exact this⟩

theorem ce_usable : CanCall (ceEnv (some 2) (some 8)) .ps false :=
  ⟨by simp [NoSolver], by simp, by simp⟩

theorem ce_costs : usedDc { minimal := true } ceFile (ceEnv (some 2) (some 8)).D := by
  unfold usedDc
  rw [if_pos (.inl rfl)]
  funext i j
  simp [usedD, ceFile, ceEnv]

example : ∀ t ∈ tasks [(ceFile, [((Algo.ps.abbrev, Algo.ps.name), .ret (some [0, 1, 2, 0, 3, 4, 0]))])],
    ∃ a e, TaskCalled { minimal := true } false false t a e := by
  intro t ht
  simp only [tasks, List.flatMap_cons, List.map_cons, List.map_nil, List.flatMap_nil, List.append_nil, List.mem_singleton] at ht
  subst ht
  exact ⟨.ps, ceEnv (some 2) (some 8),
    { ok := ceEnv_ok, usable := ce_usable, name := rfl, out := ce_out, size := rfl, costs := ce_costs, dem := rfl, cap := rfl
      len := rfl, home := ceLine_metric.self 0, symm := ceLine_metric.symm }⟩

example : ∃ m shown, Covers 5 m ∧ Feasible ceLine (fun n => if n = 0 then 0 else 1) (some 2) (some 8) m ∧
    read_and_solve ⟨5, ceLine, ceLine, fun n => if n = 0 then 0 else 1, some 2, some 8⟩ false 3 1
      (fun _ => .ret (some [0, 1, 2, 0, 3, 4, 0])) = .ok (.ret m (cost ceLine m) (cost ceLine m) shown) := by
  obtain ⟨-, m, shown, -, -, -, h1, h2, h3⟩ := C64_best ⟨5, ceLine, ceLine, fun n => if n = 0 then 0 else 1, some 2, some 8⟩ .ps
    false false (n := 3) (by norm_num) 1 (fun _ => ceEnv (some 2) (some 8)) (fun _ => .ret (some [0, 1, 2, 0, 3, 4, 0])) (by simp)
    (fun _ _ => ⟨ceEnv_ok, ce_usable, ce_out, rfl, rfl, rfl, rfl, rfl⟩)
  exact ⟨m, shown, h1, h2, h3⟩

end Verif
