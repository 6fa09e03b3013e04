import Verif.Spec.Basic

/-! # Specification of the intra-route neighbourhoods

The neighbourhoods are stated by splitting the route into parts, without indices. -/

namespace Verif.Spec

/-- The route is a circuit or path whose inner nodes differ from each other and from the ends. -/
def Circuit (r : List ℕ) : Prop := ∃ x m y, r = x :: (m ++ [y]) ∧ (x :: m).Nodup ∧ y ∉ m

/-- Reversal of a segment; the ends stay. -/
def Nb2opt (r r' : List ℕ) : Prop :=
  ∃ A B C : List ℕ, A ≠ [] ∧ B ≠ [] ∧ C ≠ [] ∧ r = A ++ B ++ C ∧ r' = A ++ B.reverse ++ C

/-- Removal of three edges and any of the seven ways to reconnect the two inner segments. -/
def Nb3opt (r r' : List ℕ) : Prop :=
  ∃ A B C E : List ℕ, A ≠ [] ∧ B ≠ [] ∧ C ≠ [] ∧ E ≠ [] ∧ r = A ++ B ++ C ++ E ∧
    ∃ M, r' = A ++ M ++ E ∧
      (M = B ++ C.reverse ∨ M = B.reverse ++ C ∨ M = B.reverse ++ C.reverse ∨
        M = C ++ B ∨ M = C.reverse ++ B ∨ M = C ++ B.reverse ∨ M = C.reverse ++ B.reverse)

/-- One inner node moves past a non-empty part of the route, in either direction. -/
def NbRelocate (r r' : List ℕ) : Prop :=
  ∃ A M E : List ℕ, ∃ n, A ≠ [] ∧ M ≠ [] ∧ E ≠ [] ∧
    ((r = A ++ [n] ++ M ++ E ∧ r' = A ++ M ++ [n] ++ E) ∨
     (r = A ++ M ++ [n] ++ E ∧ r' = A ++ [n] ++ M ++ E))

/-- Two inner nodes swap their places. -/
def NbExchange (r r' : List ℕ) : Prop :=
  ∃ A M E : List ℕ, ∃ n m, A ≠ [] ∧ E ≠ [] ∧
    r = A ++ [n] ++ M ++ [m] ++ E ∧ r' = A ++ [m] ++ M ++ [n] ++ E

/-- What a local search operator should answer for a route, a neighbourhood and a bound: if it
finds something, a neighbour (by `Nb`) with its exact change of cost that is below the bound by more
than the tolerance (and if `best`, such that no neighbour by `Nc` is better by more than the
tolerance); if it finds nothing, no neighbour by `Nc` is that good. -/
def MoveOkFor (D : ℕ → ℕ → ℚ) (Nb Nc : List ℕ → List ℕ → Prop) (best : Bool) (bound : ℚ)
    (route : List ℕ) : Option (List ℕ × ℚ) → Prop
  | some (r', delta) =>
    Nb route r' ∧ cost D r' = cost D route + delta ∧ delta + S_EPS < bound ∧
      (best = true → ∀ r'', Nc route r'' → ¬ (cost D r'' - cost D route + S_EPS < delta))
  | none => ∀ r'', Nc route r'' → ¬ (cost D r'' - cost D route + S_EPS < bound)

/-- The same for operators that find all of the neighbourhood. -/
def MoveOk (D : ℕ → ℕ → ℚ) (Nb : List ℕ → List ℕ → Prop) (best : Bool) (bound : ℚ)
    (route : List ℕ) (r : Option (List ℕ × ℚ)) : Prop := MoveOkFor D Nb Nb best bound route r

end Verif.Spec
