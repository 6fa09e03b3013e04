import Verif.Model.WrenHollidayInit

/-! # More fuel does not change what the heuristic of Wren and Holliday answers -/

namespace Verif

/-- The answer `b` is the answer `a` unless the fuel did not suffice for that one. -/
def More {α : Type} (a b : Py (Option α)) : Prop := a = .ok none ∨ a = b

theorem More.rfl' {α : Type} (a : Py (Option α)) : More a a := Or.inr rfl

theorem More.ok {α : Type} {a b : Py (Option α)} (h : More a b) {x : α} (ha : a = .ok (some x)) : b = .ok (some x) := by
  rcases h with h | h
  · rw [h] at ha; cases ha
  · rw [← h, ha]

theorem ensureL_more (d : ℕ → ℚ) (C L : Option ℚ) (fwd : Bool) (nodes : List ℕ) (tsp : Router) {f f' : ℕ} (h : f ≤ f') (cur : SwRoute)
    (routed : ℕ → Bool) (pos lpos : ℕ) :
    More (ensureL d C L fwd nodes tsp f cur routed pos lpos) (ensureL d C L fwd nodes tsp f' cur routed pos lpos) := by
  induction f generalizing f' cur routed pos lpos with
  | zero => exact Or.inl rfl
  | succ f ih =>
    obtain ⟨g, rfl⟩ : ∃ g, f' = g + 1 := ⟨f' - 1, by omega⟩
    unfold ensureL
    by_cases hL : exceeds L S_EPS cur.cost = false
    · rw [if_pos hL, if_pos hL]; exact More.rfl' _
    · rw [if_neg hL, if_neg hL]
      dsimp only
      cases idx nodes (sweepStep (!fwd) pos (nodes.length - 1)) with
      | error e => exact More.rfl' _
      | ok node =>
        dsimp only
        by_cases hm : node ∈ cur.node_set
        · rw [if_pos hm, if_pos hm]; exact ih (by omega) _ _ _ _
        · rw [if_neg hm, if_neg hm]; exact ih (by omega) _ _ _ _

theorem swRoute_more (d : ℕ → ℚ) (C L : Option ℚ) (fwd : Bool) (nodes : List ℕ) (tsp : Router) {f f' : ℕ} (h : f ≤ f') (s : SwState) :
    More (swRoute d C L fwd nodes tsp f s) (swRoute d C L fwd nodes tsp f' s) := by
  unfold swRoute
  dsimp only
  split_ifs
  · rcases ensureL_more d C L fwd nodes tsp h { s.cur with route := (tsp s.cur.node_set).1, cost := (tsp s.cur.node_set).2 } s.routed
      s.pos s.pos with e | e
    · rw [e]; exact Or.inl rfl
    · rw [e]; exact More.rfl' _
  · exact More.rfl' _

theorem swScan_more (fwd : Bool) (nodes : List ℕ) (routed : ℕ → Bool) (start : ℕ) {f f' : ℕ} (h : f ≤ f') (pos : ℕ) :
    More (swScan fwd nodes routed start f pos) (swScan fwd nodes routed start f' pos) := by
  induction f generalizing f' pos with
  | zero => exact Or.inl rfl
  | succ f ih =>
    obtain ⟨g, rfl⟩ : ∃ g, f' = g + 1 := ⟨f' - 1, by omega⟩
    unfold swScan
    dsimp only
    cases idx nodes (sweepStep fwd pos (nodes.length - 1)) with
    | error e => exact More.rfl' _
    | ok n =>
      dsimp only
      split_ifs
      · exact More.rfl' _
      · exact More.rfl' _
      · exact ih (by omega) _

theorem swMove_more (fwd : Bool) (nodes : List ℕ) {f f' : ℕ} (h : f ≤ f') (s : SwState) :
    More (swMove fwd nodes f s) (swMove fwd nodes f' s) := by
  unfold swMove
  rcases swScan_more fwd nodes s.routed s.pos h s.pos with e | e
  · rw [e]; exact Or.inl rfl
  · rw [e]; exact More.rfl' _

theorem swHead_more (d : ℕ → ℚ) (C L : Option ℚ) (fwd : Bool) (nodes : List ℕ) (tsp : Router) (alt : Bool) {f f' : ℕ} (h : f ≤ f')
    (s : SwState) : More (swHead d C L fwd nodes tsp alt f s) (swHead d C L fwd nodes tsp alt f' s) := by
  unfold swHead
  cases swTest d C L tsp s with
  | error e => exact More.rfl' _
  | ok s =>
    dsimp only
    split_ifs
    · rcases swRoute_more d C L fwd nodes tsp h s with e | e
      · rw [e]; exact Or.inl rfl
      · rw [e]; exact More.rfl' _
    · exact More.rfl' _

theorem sweepLoop_more (D : ℕ → ℕ → ℚ) (d : ℕ → ℚ) (C L : Option ℚ) (fwd : Bool) (nodes : List ℕ) (tsp : Router) (alt : Bool)
    {i i' f f' : ℕ} (hi : i ≤ i') (h : f ≤ f') (s : SwState) :
    More (sweepLoop D d C L fwd nodes tsp alt i f s) (sweepLoop D d C L fwd nodes tsp alt i' f' s) := by
  induction f generalizing f' s with
  | zero => exact Or.inl rfl
  | succ f ih =>
    obtain ⟨g, rfl⟩ : ∃ g, f' = g + 1 := ⟨f' - 1, by omega⟩
    unfold sweepLoop
    rcases swHead_more d C L fwd nodes tsp alt hi s with e | e
    · rw [e]; exact Or.inl rfl
    · rw [e]
      match swHead d C L fwd nodes tsp alt i' s with
      | .error e => exact More.rfl' _
      | .ok none => exact More.rfl' _
      | .ok (some (.done routes)) => exact More.rfl' _
      | .ok (some (.next s)) =>
        dsimp only
        match swAdd D d C L s with
        | .error e => exact More.rfl' _
        | .ok s =>
          dsimp only
          rcases swMove_more fwd nodes hi s with e | e
          · rw [e]; exact Or.inl rfl
          · rw [e]
            match swMove fwd nodes i' s with
            | .error e => exact More.rfl' _
            | .ok none => exact More.rfl' _
            | .ok (some s) => exact ih (by omega) s

theorem do_one_sweep_more (D : ℕ → ℕ → ℚ) (d : ℕ → ℚ) (C L : Option ℚ) (tsp : Router) (nodes : List ℕ) (start : ℕ) (fwd alt : Bool)
    {f f' : ℕ} (h : f ≤ f') :
    More (do_one_sweep f D d C L tsp nodes start fwd alt) (do_one_sweep f' D d C L tsp nodes start fwd alt) := by
  unfold do_one_sweep
  cases idx nodes start with
  | error e => exact More.rfl' _
  | ok node => exact sweepLoop_more D d C L fwd nodes tsp alt h h _

theorem sweepRuns_more (D : ℕ → ℕ → ℚ) (d : ℕ → ℚ) (C L : Option ℚ) (tsp : Router) (nodes : List ℕ) (mK : Bool) {f f' : ℕ} (h : f ≤ f')
    (l : List (Bool × ℕ)) (best : Option (List ℕ × ℚ × ℚ)) (seen : List (Option (List ℕ))) :
    More (sweepRuns f D d C L tsp nodes mK l best seen) (sweepRuns f' D d C L tsp nodes mK l best seen) := by
  induction l generalizing best seen with
  | nil => exact More.rfl' _
  | cons x l ih =>
    obtain ⟨fwd, start⟩ := x
    unfold sweepRuns
    rcases do_one_sweep_more D d C L tsp nodes start fwd false h with e | e
    · rw [e]; exact Or.inl rfl
    · rw [e]
      match do_one_sweep f' D d C L tsp nodes start fwd false with
      | .error e => exact More.rfl' _
      | .ok none => exact More.rfl' _
      | .ok (some routes) => exact ih _ _

theorem sweep_init_more (N : ℕ) (D : ℕ → ℕ → ℚ) (d : ℕ → ℚ) (C L : Option ℚ) (tsp : Router) (nodes : List ℕ) (mK : Bool)
    (dir : SweepDir) (seed : SweepSeed) {f f' : ℕ} (h : f ≤ f') :
    More (sweep_init f N D d C L tsp nodes mK dir seed) (sweep_init f' N D d C L tsp nodes mK dir seed) := by
  unfold sweep_init
  match sweepDirs dir, sweepStarts N nodes seed with
  | .error e, _ => exact More.rfl' _
  | .ok _, .error e => exact More.rfl' _
  | .ok dirs, .ok starts => exact sweepRuns_more D d C L tsp nodes mK h _ _ _

theorem whInspectRoute_more (D : ℕ → ℕ → ℚ) {f f' : ℕ} (h : f ≤ f') (rd : RouteData) (b : Bool) :
    More (whInspectRoute D f rd b) (whInspectRoute D f' rd b) := by
  induction f generalizing f' rd b with
  | zero => exact Or.inl rfl
  | succ f ih =>
    obtain ⟨g, rfl⟩ : ∃ g, f' = g + 1 := ⟨f' - 1, by omega⟩
    unfold whInspectRoute
    match do_2opt_move rd.route D .FIRST_ACCEPT none with
    | .error e => exact More.rfl' _
    | .ok none => exact More.rfl' _
    | .ok (some (r, x)) => exact ih (by omega) _ _

theorem inspect_more (D : ℕ → ℕ → ℚ) {f f' : ℕ} (h : f ≤ f') (l : List RouteData) :
    More (inspect_heuristic f D l) (inspect_heuristic f' D l) := by
  induction l with
  | nil => exact More.rfl' _
  | cons rd l ih =>
    unfold inspect_heuristic
    have h1 : More (whInspectOne f D rd) (whInspectOne f' D rd) := by
      unfold whInspectOne
      split_ifs
      · exact More.rfl' _
      · exact whInspectRoute_more D h rd false
    rcases h1 with e | e
    · rw [e]; exact Or.inl rfl
    · rw [e]
      match whInspectOne f' D rd with
      | .error e => exact More.rfl' _
      | .ok none => exact More.rfl' _
      | .ok (some (rd, b)) =>
        dsimp only
        rcases ih with e | e
        · rw [e]; exact Or.inl rfl
        · rw [e]; exact More.rfl' _

theorem whSingleRoute_more (D : ℕ → ℕ → ℚ) (d : ℕ → ℚ) (C L : Option ℚ) (i : ℕ) {f f' : ℕ} (h : f ≤ f') (l : List RouteData) (b : Bool) :
    More (whSingleRoute D d C L i f l b) (whSingleRoute D d C L i f' l b) := by
  induction f generalizing f' l b with
  | zero => exact Or.inl rfl
  | succ f ih =>
    obtain ⟨g, rfl⟩ : ∃ g, f' = g + 1 := ⟨f' - 1, by omega⟩
    unfold whSingleRoute
    match whSingleOnce D d C L i l with
    | .error e => exact More.rfl' _
    | .ok (r, false) => exact More.rfl' _
    | .ok (r, true) => exact ih (by omega) _ _

theorem whSingleOne_more (D : ℕ → ℕ → ℚ) (d : ℕ → ℚ) (C L : Option ℚ) (i : ℕ) {f f' : ℕ} (h : f ≤ f') (l : List RouteData) :
    More (whSingleOne f D d C L i l) (whSingleOne f' D d C L i l) := by
  unfold whSingleOne
  cases idx l i with
  | error e => exact More.rfl' _
  | ok rd =>
    dsimp only
    split_ifs
    · exact More.rfl' _
    · exact whSingleRoute_more D d C L i h l false

theorem whSingleLoop_more (D : ℕ → ℕ → ℚ) (d : ℕ → ℚ) (C L : Option ℚ) {f f' : ℕ} (h : f ≤ f') (is : List ℕ) (l : List RouteData)
    (b : Bool) : More (whSingleLoop f D d C L is l b) (whSingleLoop f' D d C L is l b) := by
  induction is generalizing l b with
  | nil => exact More.rfl' _
  | cons i is ih =>
    unfold whSingleLoop
    rcases whSingleOne_more D d C L i h l with e | e
    · rw [e]; exact Or.inl rfl
    · rw [e]
      match whSingleOne f' D d C L i l with
      | .error e => exact More.rfl' _
      | .ok none => exact More.rfl' _
      | .ok (some (r, x)) => exact ih _ _

theorem single_more (D : ℕ → ℕ → ℚ) (d : ℕ → ℚ) (C L : Option ℚ) {f f' : ℕ} (h : f ≤ f') (l : List RouteData) :
    More (single_heuristic f D d C L l) (single_heuristic f' D d C L l) := whSingleLoop_more D d C L h _ _ _

theorem whRebuild_more (N : ℕ) (S : WhSweep) (D : ℕ → ℕ → ℚ) (d : ℕ → ℚ) (C L : Option ℚ) {f f' : ℕ} (h : f ≤ f') (rd1 rd2 : RouteData) :
    More (whRebuild f N S D d C L rd1 rd2) (whRebuild f' N S D d C L rd1 rd2) := by
  unfold whRebuild
  dsimp only
  split
  · exact More.rfl' _
  · rename_i seed _
    rcases sweep_init_more N D d C L (sweptOrder D)
      (S.read (S.nodes.filter fun n => decide (n ∈ rd1.route.dropLast ++ rd2.route.tail.dropLast))) false .cw (.list [seed]) h with e | e
    · rw [e]; exact Or.inl rfl
    · rw [e]; exact More.rfl' _

theorem whRefineOnce_more (D : ℕ → ℕ → ℚ) (d : ℕ → ℚ) (C L : Option ℚ) {f f' : ℕ} (h : f ≤ f') (l : List RouteData) (om : List ℕ) :
    More (whRefineOnce f D d C L l om) (whRefineOnce f' D d C L l om) := by
  unfold whRefineOnce
  rcases inspect_more D h l with e | e
  · rw [e]; exact Or.inl rfl
  · rw [e]
    match inspect_heuristic f' D l with
    | .error e => exact More.rfl' _
    | .ok none => exact More.rfl' _
    | .ok (some (l, b)) =>
      dsimp only
      rcases single_more D d C L h l with e | e
      · rw [e]; exact Or.inl rfl
      · rw [e]; exact More.rfl' _

theorem whRefine_more (D : ℕ → ℕ → ℚ) (d : ℕ → ℚ) (C L : Option ℚ) {i i' f f' : ℕ} (hi : i ≤ i') (h : f ≤ f') (l : List RouteData)
    (om : List ℕ) : More (whRefine i D d C L f l om) (whRefine i' D d C L f' l om) := by
  induction f generalizing f' l om with
  | zero => exact Or.inl rfl
  | succ f ih =>
    obtain ⟨g, rfl⟩ : ∃ g, f' = g + 1 := ⟨f' - 1, by omega⟩
    unfold whRefine
    rcases whRefineOnce_more D d C L hi l om with e | e
    · rw [e]; exact Or.inl rfl
    · rw [e]
      match whRefineOnce i' D d C L l om with
      | .error e => exact More.rfl' _
      | .ok none => exact More.rfl' _
      | .ok (some (l, om, false)) => exact More.rfl' _
      | .ok (some (l, om, true)) => exact ih (by omega) _ _

theorem whUntie_more (N : ℕ) (S : WhSweep) (D : ℕ → ℕ → ℚ) (d : ℕ → ℚ) (C L : Option ℚ) {f f' : ℕ} (h : f ≤ f') (rd1 rd2 : RouteData) :
    More (whUntie f N S D d C L rd1 rd2) (whUntie f' N S D d C L rd1 rd2) := by
  unfold whUntie
  rcases whRebuild_more N S D d C L h rd1 rd2 with e | e
  · rw [e]; exact Or.inl rfl
  · rw [e]
    match whRebuild f' N S D d C L rd1 rd2 with
    | .error e => exact More.rfl' _
    | .ok none => exact More.rfl' _
    | .ok (some et) =>
      dsimp only
      rcases whRefine_more D d C L h h (et.take 2) ((et.drop 2).flatMap fun rd => rd.route.tail.dropLast) with e | e
      · rw [e]; exact Or.inl rfl
      · rw [e]; exact More.rfl' _

theorem whDisentangleAt_more (N : ℕ) (S : WhSweep) (D : ℕ → ℕ → ℚ) (d : ℕ → ℚ) (C L : Option ℚ) {f f' : ℕ} (h : f ≤ f') (i j : ℕ)
    (l : List RouteData) (ra : List (Option PhiRange)) :
    More (whDisentangleAt f N S D d C L i j l ra) (whDisentangleAt f' N S D d C L i j l ra) := by
  unfold whDisentangleAt
  match idx l i, idx l j with
  | .error e, _ => exact More.rfl' _
  | .ok _, .error e => exact More.rfl' _
  | .ok rd1, .ok rd2 =>
    dsimp only
    match idx ra i, idx ra j with
    | .error e, _ => exact More.rfl' _
    | .ok _, .error e => exact More.rfl' _
    | .ok r1, .ok r2 =>
      dsimp only
      split_ifs
      · rcases whUntie_more N S D d C L h rd1 rd2 with e | e
        · rw [e]; exact Or.inl rfl
        · rw [e]; exact More.rfl' _
      · exact More.rfl' _

theorem whDisentangleLoop_more (N : ℕ) (S : WhSweep) (D : ℕ → ℕ → ℚ) (d : ℕ → ℚ) (C L : Option ℚ) {f f' : ℕ} (h : f ≤ f')
    (ps : List (ℕ × ℕ)) (l : List RouteData) (ra : List (Option PhiRange)) :
    More (whDisentangleLoop f N S D d C L ps l ra) (whDisentangleLoop f' N S D d C L ps l ra) := by
  induction ps generalizing l ra with
  | nil => exact More.rfl' _
  | cons p ps ih =>
    obtain ⟨i, j⟩ := p
    unfold whDisentangleLoop
    rcases whDisentangleAt_more N S D d C L h i j l ra with e | e
    · rw [e]; exact Or.inl rfl
    · rw [e]
      match whDisentangleAt f' N S D d C L i j l ra with
      | .error e => exact More.rfl' _
      | .ok none => exact More.rfl' _
      | .ok (some (l, ra)) => exact ih _ _

theorem whStep_more (I : WhInput) {f f' : ℕ} (h : f ≤ f') (s : WhState) : More (whStep f I s) (whStep f' I s) := by
  unfold whStep
  cases s.stage with
  | inspect =>
    dsimp only
    unfold whStepInspect
    rcases inspect_more I.D h (whOpen I s.routes) with e | e
    · rw [e]; exact Or.inl rfl
    · rw [e]; exact More.rfl' _
  | single =>
    dsimp only
    unfold whStepSingle
    rcases single_more I.D I.d I.C I.L h s.routes with e | e
    · rw [e]; exact Or.inl rfl
    · rw [e]; exact More.rfl' _
  | pair => exact More.rfl' _
  | delete => exact More.rfl' _
  | disentangle =>
    dsimp only
    unfold whStepDisentangle disentangle_heuristic
    rcases whDisentangleLoop_more I.N I.sweep I.D I.d I.C I.L h (ordPairs s.routes.length) s.routes (s.routes.map (whRange I.sweep))
      with e | e
    · rw [e]; exact Or.inl rfl
    · rw [e]; exact More.rfl' _
  | stopped => exact More.rfl' _

theorem whLoop_more (I : WhInput) {f f' : ℕ} (h : f ≤ f') (n : ℕ) (s : WhState) : More (whLoop f I n s) (whLoop f' I n s) := by
  induction n generalizing s with
  | zero => exact More.rfl' _
  | succ n ih =>
    unfold whLoop
    split_ifs
    · exact More.rfl' _
    · rcases whStep_more I h s with e | e
      · rw [e]; exact Or.inl rfl
      · rw [e]
        match whStep f' I s with
        | .error e => exact More.rfl' _
        | .ok none => exact More.rfl' _
        | .ok (some s) => exact ih s

theorem whInitials_more (I : WhInput) {f f' : ℕ} (h : f ≤ f') (l : List (ℕ × Bool)) : More (whInitials f I l) (whInitials f' I l) := by
  induction l with
  | nil => exact More.rfl' _
  | cons p l ih =>
    obtain ⟨start, cw⟩ := p
    unfold whInitials
    rcases sweep_init_more I.N I.D I.d I.C I.L (sweptOrder I.D) (I.sweep.read I.sweep.nodes) false
        (if cw then .cw else .ccw) (.list [start]) h with e | e
    · rw [e]; exact Or.inl rfl
    · rw [e]
      split
      · exact More.rfl' _
      · exact More.rfl' _
      · exact More.rfl' _
      · rcases ih with e | e
        · rw [e]; exact Or.inl rfl
        · rw [e]; exact More.rfl' _

end Verif
