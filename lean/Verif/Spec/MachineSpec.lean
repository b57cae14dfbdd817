import Verif.Model.Machine

/-! Vocabulary of C75: builds, agreement of results, sizes. -/
namespace Sia

/-- The targets considered: `usize` of 32 bits (wasm32) or 64 bits, overflow checked or not. -/
def Target.Valid (T : Target) : Prop := T.bits = 32 ∨ T.bits = 64

/-- Two calls return the same values (they may panic for different reasons). -/
def SameResult {α : Type} (a b : Res α) : Prop := ∀ r, a = .ok r ↔ b = .ok r

/-- An image small enough for its dimensions and number of pixels to be handled exactly: sides below `2^31` (the code casts them to
`i32`), fewer than `2^53` pixels (the code casts that number to `f64`), and a number of pixels that is a `usize`. -/
structure Fits (T : Target) (width height : Nat) : Prop where
  rows : width < 2 ^ 31
  cols : height < 2 ^ 31
  exact : width * height < 2 ^ 53
  size : width * height < 2 ^ T.bits

/-- No feature lies in the smallest cell a 64-bit number can name: that is, not at `-2^63` steps or below. -/
def NoneAtMinimum (features : List F64) (step : F64) : Prop := ∀ f ∈ features, quantizeOne step f ≠ i64Min

/-- A channel small enough for the features: also the square of the width is a `usize` (the code builds a square matrix). -/
structure FitsSquare (T : Target) (width height : Nat) : Prop extends Fits T width height where
  square : width * width < 2 ^ T.bits

/-- What the moduli of moments are: not negative, or not a number. -/
def Deps.Moduli (D : Deps F64) : Prop := ∀ order index image, D.momentAbs order index image = .nan ∨
  FloatOps.ge (D.momentAbs order index image) (.fin 0) = true

end Sia
