import Verif.Model.Cmt

/-! # Interrupts of `cmt_2phase_init`

`verypy/classic_heuristics/cmt_2phase.py`: an interrupt comes between two rounds of the loop of one of the phases, or outside
of these loops. What an interrupt within a round leaves behind is the subject of `cmtOneInterrupted` and
`cmtTwoInterrupted`. -/

namespace Verif

/-- The solution that comes with an interrupt, its cost and its number of routes, cmt_2phase.py 543-550. -/
def cmtScored (D : ℕ → ℕ → ℚ) (arg : List ℕ) : List ℕ × ℚ × ℚ :=
  (without_empty_routes arg, objf (without_empty_routes arg) D, ((without_empty_routes arg).count 0 : ℚ) - 1)

/-- The solution that is passed on, cmt_2phase.py 553-571. A solution that is not there has an infinite cost and number of routes;
this is written as `none`, as the only difference is that no solution at all would be recorded with the infinite cost before it is
passed on. -/
def cmtPassOn (mk : Bool) (one two : Option (List ℕ × ℚ × ℚ)) (b : CmtBest) : Option (List ℕ) :=
  let f1 := one.map (·.2.1)
  let K1 := one.map (·.2.2)
  let f2 := two.map (·.2.1)
  let K2 := two.map (·.2.2)
  let p1 := is_better_sol f2 K2 f1 K1 mk
  let b1 := is_better_sol b.f b.K f1 K1 mk
  let b2 := is_better_sol b.f b.K f2 K2 mk
  if p1 && b1 then one.map (·.1)
  else if !p1 && b2 then two.map (·.1)
  else b.sol

/-- The handler, cmt_2phase.py 539-571. `first` is what the first phase gave, if it was done; `arg` is the solution that comes with
the interrupt. -/
def cmtHandler (D : ℕ → ℕ → ℚ) (mk : Bool) (first : Option (List ℕ × ℚ × ℚ)) (arg : Option (List ℕ)) (b : CmtBest) :
    Option (List ℕ) :=
  match first with
  | none => cmtPassOn mk (arg.map (cmtScored D)) none b
  | some f => cmtPassOn mk (some f) (arg.map (cmtScored D)) b

/-- When the interrupt comes in an attempt: before the loop of the first phase, after so many rounds of it, between the two loops,
or after so many rounds of the second one. See cmt_2phase.py 92, 181, 252 and 398. -/
inductive CmtWhen where
  | before
  | one (k : ℕ)
  | between
  | two (k : ℕ)
  deriving DecidableEq

/-- So many rounds of the first phase, or fewer if it is done. See cmt_2phase.py 92-180. -/
def cmtOneRounds (D : ℕ → ℕ → ℚ) (d : ℕ → ℚ) (C L : Option ℚ) (tsp : CmtTsp) (lam : ℚ) (m : CmtSeed) :
    ℕ → CmtOne → Py CmtOne
  | 0, s => .ok s
  | k + 1, s =>
    if s.unrouted = [] then .ok s
    else
      match cmtOneStep D d C L tsp lam m s with
      | .error e => .error e
      | .ok s' => cmtOneRounds D d C L tsp lam m k s'

/-- So many rounds of the second phase, or fewer if it is done. See cmt_2phase.py 252-397. -/
def cmtTwoRounds (D : ℕ → ℕ → ℚ) (d : ℕ → ℚ) (C L : Option ℚ) (tsp : CmtTsp) (p : CmtParams) : ℕ → CmtTwo → Py CmtTwo
  | 0, s => .ok s
  | k + 1, s =>
    if s.unrouted = [] then .ok s
    else
      match cmtRefill p s with
      | none => .ok s
      | some s1 =>
        match cmtTwoStep D d C L tsp p s1 with
        | .error e => .error e
        | .ok s2 => cmtTwoRounds D d C L tsp p k s2

/-- An attempt that is interrupted: the solution passed on, cmt_2phase.py 524-571. -/
def cmtAttemptInterrupted (a : CmtArgs) (l : CmtLuck) (w : CmtWhen) (b : CmtBest) (fuel : ℕ) :
    Py (Option (Option (List ℕ))) :=
  match w with
  | .before => .ok (some (cmtHandler a.D a.minimize_K none none b))
  | .one k =>
    match cmtOneRounds a.D a.d a.C a.L a.tsp a.lam a.seed k ⟨l.order1, [], [], 0⟩ with
    | .error e => .error e
    | .ok s => .ok (some (cmtHandler a.D a.minimize_K none (some (cmtOneInterrupted s.sol s.unrouted)) b))
  | .between =>
    match cmt_phase_one a.D a.d a.C a.L a.tsp a.lam a.seed l.order1 fuel with
    | .error e => .error e
    | .ok none => .ok none
    | .ok (some (seeds, sol1, f1)) =>
      .ok (some (cmtHandler a.D a.minimize_K (some (sol1, f1, (seeds.length : ℚ))) none b))
  | .two k =>
    match cmt_phase_one a.D a.d a.C a.L a.tsp a.lam a.seed l.order1 fuel with
    | .error e => .error e
    | .ok none => .ok none
    | .ok (some (seeds, sol1, f1)) =>
      let p : CmtParams := ⟨seeds, a.mu, a.most, cmtRep a.rep seeds.length, l.shuffle, l.partition⟩
      match cmtTwoRounds a.D a.d a.C a.L a.tsp p k (cmtTwoInit a.D a.d a.C p l.order2) with
      | .error e => .error e
      | .ok s => .ok (some (cmtHandler a.D a.minimize_K (some (sol1, f1, (seeds.length : ℚ))) (some (cmtTwoInterrupted a.tsp s)) b))

/-- How a run with an interrupt ends: it was over before, or the solution is passed on. See cmt_2phase.py 569-579. -/
inductive CmtEnd where
  | returned (sol : Option (List ℕ))
  | interrupted (sol : Option (List ℕ))
  deriving DecidableEq

/-- The loop of retries, where the interrupt comes after `skip` attempts have been made, cmt_2phase.py 519-579. -/
def cmtRetryInterrupted (a : CmtArgs) (luck : ℕ → CmtLuck) (w : CmtWhen) (fuel : ℕ) : ℕ → ℕ → CmtBest → Py (Option CmtEnd)
  | _, 0, b => .ok (some (.returned b.sol))
  | 0, r + 1, b =>
    match cmtAttemptInterrupted a (luck r) w b fuel with
    | .error e => .error e
    | .ok none => .ok none
    | .ok (some sol) => .ok (some (.interrupted sol))
  | skip + 1, r + 1, b =>
    match cmtAttempt a (luck r) fuel with
    | .error e => .error e
    | .ok none => .ok none
    | .ok (some t) =>
      if t.second.isSome then .ok (some (.returned (cmtPick a.minimize_K t b).sol))
      else cmtRetryInterrupted a luck w fuel skip r (cmtPick a.minimize_K t b)

end Verif
