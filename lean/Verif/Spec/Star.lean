import Verif.Spec.Basic

/-!
# Specification of a 3-opt* move

A solution is cut in four at three of its edges. The first part and the last part stay where they are, and the
two parts between are put back in another way. A part with a visit to the depot can also be made into routes of
its own: it is opened at its last depot visit and closed at that depot.
-/

namespace Verif.Spec

/-- Distances, demands and limits are not negative, and it costs nothing to stay at the depot. -/
structure NonNegative (D : ℕ → ℕ → ℚ) (d : ℕ → ℚ) (C L : Option ℚ) : Prop where
  dist : ∀ i j, 0 ≤ D i j
  depot : D 0 0 = 0
  dem : ∀ i, 0 ≤ d i
  cap : ∀ c, C = some c → 0 ≤ c
  len : ∀ c, L = some c → 0 ≤ c

/-- A part as it is or reversed. -/
def Way (X X' : List ℕ) : Prop := X' = X ∨ X' = X.reverse

/-- The ways in which the parts are put back. -/
inductive Reconnected (A B S E : List ℕ) : List ℕ → Prop
  /-- In the same order, the first is reversed. -/
  | turn1 (S' : List ℕ) : Way S S' → Reconnected A B S E (A ++ B.reverse ++ S' ++ E)
  /-- In the same order, the second is reversed. -/
  | turn2 : Reconnected A B S E (A ++ B ++ S.reverse ++ E)
  /-- In the other order. -/
  | swap (B' S' : List ℕ) : Way B B' → Way S S' → Reconnected A B S E (A ++ S' ++ B' ++ E)
  /-- The first part is made into routes of its own. -/
  | loop1 (B1 B2 S' : List ℕ) : B = B1 ++ 0 :: B2 → 0 ∉ B2 → Way S S' →
      Reconnected A B S E (A ++ S' ++ E ++ B2 ++ B1 ++ [0])
  /-- The first part is made into routes of its own, which take in the second part. -/
  | join1 (B1 B2 S' : List ℕ) : B = B1 ++ 0 :: B2 → 0 ∉ B2 → Way S S' →
      Reconnected A B S E (A ++ E ++ B2 ++ S' ++ B1 ++ [0])
  /-- The second part is made into routes of its own. -/
  | loop2 (S1 S2 B' : List ℕ) : S = S1 ++ 0 :: S2 → 0 ∉ S2 → Way B B' →
      Reconnected A B S E (A ++ B' ++ E ++ S2 ++ S1 ++ [0])
  /-- The second part is made into routes of its own, which take in the first part. -/
  | join2 (S1 S2 B' : List ℕ) : S = S1 ++ 0 :: S2 → 0 ∉ S2 → Way B B' →
      Reconnected A B S E (A ++ E ++ S2 ++ B' ++ S1 ++ [0])
  /-- Both parts are made into routes of their own. -/
  | loops (B1 B2 S1 S2 : List ℕ) : B = B1 ++ 0 :: B2 → 0 ∉ B2 → S = S1 ++ 0 :: S2 → 0 ∉ S2 →
      Reconnected A B S E (A ++ E ++ B2 ++ B1 ++ [0] ++ S2 ++ S1 ++ [0])

end Verif.Spec
