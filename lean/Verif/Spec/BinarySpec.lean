import Verif.Model.Float

/-! The set of IEEE 754 binary64 values, written down independently of the rounding function of the model. Used to state that
the model's `f64` arithmetic is correct rounding (Verif/Props/FloatIeee.lean). -/
namespace Sia

/-- The finite binary64 values: a whole number of at most 53 bits times a power of two. -/
def IsDouble (y : ℚ) : Prop := ∃ m e : ℤ, |m| < 2 ^ 53 ∧ -1074 ≤ e ∧ e ≤ 971 ∧ y = m * 2 ^ e

/-- A finite binary64 value whose significand, in the one representation the format stores, is even. -/
def IsEvenDouble (y : ℚ) : Prop :=
  ∃ m e : ℤ, Even m ∧ |m| < 2 ^ 53 ∧ -1074 ≤ e ∧ e ≤ 971 ∧ (2 ^ 52 ≤ |m| ∨ e = -1074) ∧ y = m * 2 ^ e

/-- Data of the type `f64`: infinities, NaN and finite binary64 values. -/
def F64.Valid : F64 → Prop
  | .fin x => IsDouble x
  | _ => True

end Sia
