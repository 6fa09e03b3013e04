import Verif.Model.Py

/-! # The end of a loop -/

namespace Verif

/-- A loop with fuel ends with the answer `r` if there is enough of it. -/
def Ends {α : Type} (f : ℕ → Py (Option α)) (r : α) : Prop := ∃ F, ∀ fuel, F ≤ fuel → f fuel = .ok (some r)

end Verif
