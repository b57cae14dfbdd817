import Verif.Spec.EmbedSpec
import Mathlib.Algebra.BigOperators.Group.Finset.Basic

/-! Specification vocabulary for where a mark goes (C85). -/
namespace Sia
open Finset

/-- The cell of the domain that the pixel `(i, j)` of a square image of side `n` belongs to: blocks of side `2^levels`, row by row. -/
def pixelCell (n levels i j : Nat) : Nat := (i / 2 ^ levels) * (n / 2 ^ levels) + j / 2 ^ levels

/-- Sum of the pixels of the block that contains `(i, j)`, divided by the side of the block. -/
noncomputable def blockValue (levels : Nat) (image : Mat UInt8) (i j : Nat) : ℝ :=
  (∑ a ∈ range (2 ^ levels), ∑ b ∈ range (2 ^ levels),
    ((image.get (i / 2 ^ levels * 2 ^ levels + a) (j / 2 ^ levels * 2 ^ levels + b)).toNat : ℝ)) / 2 ^ levels

/-- A number brought into the range of pixels. -/
noncomputable def clampPixel (x : ℝ) : ℝ := max 0 (min 255 x)

/-- A bit as a signed quarter. -/
noncomputable def signedQuarter (bit : Bool) : ℝ := if bit then 1 / 4 else -1 / 4

/-- The picture carries the bits: the value of each of the first blocks, row by row, is nearer than a quarter of the depth (less the
slack `e` of rounding) to a multiple of the depth plus (for a 1) or minus (for a 0) a quarter of it. -/
def Carries (n levels : Nat) (image : Mat UInt8) (depth e : ℝ) (bits : List Bool) : Prop :=
  ∀ i < n, ∀ j < n, pixelCell n levels i j < bits.length →
    ∃ k : ℤ, |blockValue levels image i j - depth * (k + signedQuarter (bits.getD (pixelCell n levels i j) false))| < (1 / 4 - e) * depth

end Sia
