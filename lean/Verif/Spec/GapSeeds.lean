import Verif.Spec.Gap

/-! # Specification of the seed points of the generalized assignment heuristic -/

namespace Verif.Spec

/-- The customers in the order of their angles, with the angle, the distance from the depot and the number: each customer is there
once and the distances are not negative. -/
structure SweepOf (N : ℕ) (sweep : List (ℚ × ℚ × ℕ)) : Prop where
  nodes : (sweep.map (·.2.2)).Perm (List.range' 1 (N - 1))
  far : ∀ e ∈ sweep, 0 ≤ e.2.1

/-- What is to be shared by the vehicles: the demands, or without a capacity the length of the round trip through the customers in
the order of their angles. -/
def sweepTotal (N : ℕ) (D : ℕ → ℕ → ℚ) (d : ℕ → ℚ) (C : Option ℚ) (sweep : List (ℚ × ℚ × ℕ)) : ℚ :=
  if C = none ∨ C = some 0 then cost D (sweep.map (·.2.2) ++ (sweep.map (·.2.2)).take 1) else demand d (List.range N)

/-- There are no negative demands, or without a capacity no negative distances. -/
def SweepNonneg (N : ℕ) (D : ℕ → ℕ → ℚ) (d : ℕ → ℚ) (C : Option ℚ) : Prop :=
  (InUse C → ∀ i < N, 0 ≤ d i) ∧ (¬ InUse C → ∀ i < N, ∀ j < N, 0 ≤ D i j)

/-- No customer needs more than the share of a vehicle: not by its demand, or without a capacity not by the way to the next one. -/
def SweepSmall (N : ℕ) (D : ℕ → ℕ → ℚ) (d : ℕ → ℚ) (C : Option ℚ) (share : ℚ) : Prop :=
  (InUse C → ∀ i, 1 ≤ i → i < N → d i ≤ share) ∧ (¬ InUse C → ∀ i, 1 ≤ i → i < N → ∀ j, 1 ≤ j → j < N → D i j ≤ share)

/-- How far a customer is from the depot and the seeds chosen before: at first its distance from the depot, later the sum of the
roots of the distances from the depot and these seeds. -/
def farness (sqrt : ℚ → ℚ) (D : ℕ → ℕ → ℚ) (pre : List ℕ) (j : ℕ) : ℚ :=
  if pre = [] then D 0 j else sqrt (D 0 j) + (pre.map fun s => sqrt (D s j)).sum

/-- A point that is not farther from the depot than the customers. -/
def Near (cos sin : ℚ → ℚ) (depot : ℚ × ℚ) (sweep : List (ℚ × ℚ × ℕ)) (p : ℚ × ℚ) : Prop :=
  ∃ rho phi, p = (depot.1 + rho * cos phi, depot.2 + rho * sin phi) ∧ 0 ≤ rho ∧ ∃ e ∈ sweep, rho ≤ e.2.1

end Verif.Spec
