import Verif.Model.DynamicImage
import Mathlib.Algebra.BigOperators.Group.Finset.Basic

/-! Specification vocabulary for pictures that are marked again and again (C89). -/
namespace Sia
open Finset

/-- Sum of the samples `s` of the block of 8 x 8 pixels that contains `(x, y)`. -/
def sampleSum (image : DynamicImage) (s : Rgba → UInt8) (x y : Nat) : Nat :=
  ∑ a ∈ range 8, ∑ b ∈ range 8, (s (image.pixel (x / 8 * 8 + b) (y / 8 * 8 + a))).toNat

/-- The pixels `(x, y)` and `(x', y')` belong to the same block of 8 x 8 pixels. -/
def SameBlock (x y x' y' : Nat) : Prop := x' / 8 = x / 8 ∧ y' / 8 = y / 8

end Sia
