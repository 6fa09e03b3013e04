import Verif.Spec.Petal
import Verif.Model.PetalRelax

/-! # Specification vocabulary of the relaxed petals -/

namespace Verif.Spec

/-- Customer `m` of a route `u` is visited on `v`, which else has customers of another route `w`, at the
same extra cost. -/
def EvenMove (D : ℕ → ℕ → ℚ) (us vs : List (List ℕ)) : Prop :=
  ∃ (i j : ℕ) (u w v : List ℕ) (m : ℕ), us[i]? = some u ∧ us[j]? = some w ∧ i ≠ j ∧ m ∈ u ∧ v ∈ vs ∧ m ∈ v ∧
    (v.erase m).Sublist w ∧ visitCost D m v = visitCost D m u

/-- Customer `m` of the route `A ++ m :: B` is put into the route `P ++ Q`, at the first of its cheapest places. -/
def CheapestPlace (D : ℕ → ℕ → ℚ) (m : ℕ) (P Q : List ℕ) : Prop :=
  ∀ P' Q', P' ++ Q' = P ++ Q → cost D (wrap (P ++ m :: Q)) ≤ cost D (wrap (P' ++ m :: Q')) ∧
    (P'.length < P.length → cost D (wrap (P ++ m :: Q)) < cost D (wrap (P' ++ m :: Q')))

/-- All the routes but two. -/
def others (us : List (List ℕ)) (i j : ℕ) : List (List ℕ) :=
  (us.zipIdx.filter fun c => decide (c.2 ≠ i ∧ c.2 ≠ j)).map Prod.fst

/-- On route `u` there is room for one of the customers of `w` (more than exactly used up by the tolerance). -/
def roomFor (C : Option ℚ) (d : ℕ → ℚ) (w u : List ℕ) : Bool :=
  match C with
  | none => true
  | some c => decide (c = 0) || w.any fun n => decide (d n < c - demand d u + C_EPS)

/-- The route `v` is `w` without the customers `ns` and with `m` at the first of its cheapest places. -/
def Swapped (D : ℕ → ℕ → ℚ) (m : ℕ) (w ns v : List ℕ) : Prop :=
  ∃ P Q, P ++ Q = (w.filter fun n => decide (n ∉ ns)) ∧ v = P ++ m :: Q ∧ CheapestPlace D m P Q

/-- At most this many customers may be discarded, `none` and zero are without a limit. -/
def MayDiscard (dm : Option ℤ) (n : ℕ) : Prop := ∀ k, dm = some k → k ≠ 0 → (n : ℤ) ≤ k

/-- Routes that can take the place of some of the routes `us`: with the routes that are kept they serve the same
customers, they are within the limits, and all the routes together cost less (or a customer is moved at no gain).
One of them is a route of `us` that got a customer and for it lost at most as many as `dm` allows, or a single one. -/
def RelaxGroup (D : ℕ → ℕ → ℚ) (d : ℕ → ℚ) (C L : Option ℚ) (dm : Option ℤ) (us : List (List ℕ)) (rds : List RouteData) :
    Prop :=
  ∃ kept vs : List (List ℕ), kept.Sublist us ∧ rds.map (·.route) = vs.map wrap ∧
    (∀ rd ∈ rds, Book D (some d) C rd) ∧ (kept ++ vs).flatten.Perm us.flatten ∧
    (∀ v ∈ vs, RouteOk D d C L v) ∧
    (cost D (tour (kept ++ vs)) < cost D (tour us) ∨ EvenMove D us vs) ∧
    ∃ m w ns v, w ∈ us ∧ v ∈ vs ∧ ns.Sublist w ∧ Swapped D m w ns v ∧ (ns.length ≤ 1 ∨ MayDiscard dm ns.length)

/-- How many customers a route may lose for another one, as documented: one, any number, a given number (zero is
taken for no limit), or by the number of customers on the longest of the routes. -/
def discardLimit (c : Discard) (us : List (List ℕ)) : Option ℤ :=
  match c with
  | .no => some 1
  | .yes => none
  | .most k => some k
  | .auto =>
    if us.any fun u => decide (50 < u.length) then some 1
    else if us.any fun u => decide (30 < u.length) then some 2
    else if us.any fun u => decide (20 < u.length) then some 3
    else if us.any fun u => decide (10 < u.length) then some 5
    else none

end Verif.Spec
