import Verif.Model.Basic

namespace Sia

/-- A square matrix of side `n`. -/
def Mat.IsSquare {α : Type} (m : Mat α) (n : Nat) : Prop := m.rows = n ∧ m.cols = n

end Sia
