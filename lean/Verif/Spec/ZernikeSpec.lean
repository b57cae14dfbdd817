import Verif.Model.Basic
import Mathlib.Analysis.SpecialFunctions.Complex.Arg
import Mathlib.Data.Nat.Choose.Basic

/-! Specification of Zernike moments, independent of the model of the code (C30–C34). -/
namespace Sia
open Finset

/-- Standard radial Zernike polynomial, in the form with integer coefficients (for `m ≤ n` of equal parity). -/
noncomputable def zernikeRadial (n m : Nat) (ρ : ℝ) : ℝ :=
  ∑ k ∈ range ((n - m) / 2 + 1), ((-1) ^ k * ((n - k).choose k : ℤ) * ((n - 2 * k).choose ((n - m) / 2 - k) : ℤ) : ℤ) * ρ ^ (n - 2 * k)

/-- The point of the plane that belongs to pixel `(i, j)` (counted from 0) of an `n x n` image: the grid is centred and
scaled so that its corners have modulus 1. -/
noncomputable def pixelPoint (n i j : Nat) : ℂ :=
  ⟨(2 * (i : ℝ) - (n - 1)) / (Real.sqrt 2 * (n - 1)), (2 * (j : ℝ) - (n - 1)) / (Real.sqrt 2 * (n - 1))⟩

/-- The Zernike function `V_n^m` at a point of the plane. -/
noncomputable def zernikeV (n m : Nat) (z : ℂ) : ℂ :=
  (zernikeRadial n m ‖z‖ : ℂ) * Complex.exp (m * Complex.arg z * Complex.I)

/-- The Zernike moment of a square image of side `N`. -/
noncomputable def specMoment (N : Nat) (pixel : Nat → Nat → ℝ) (n m : Nat) : ℂ :=
  ((n : ℂ) + 1) / Real.pi * (∑ i ∈ range N, ∑ j ∈ range N, (pixel i j : ℂ) * (starRingEnd ℂ) (zernikeV n m (pixelPoint N i j))) /
    ((N : ℂ) * N)

/-- The `N x N` picture obtained from a picture of `N` rows and `P` columns by writing its pixels one after the other, row by row,
into rows of length `N`, and filling the rest with zeros. (For `P = N` it is the picture itself.) -/
noncomputable def packed (N P : Nat) (pixel : Nat → Nat → ℝ) (i j : Nat) : ℝ :=
  if i * N + j < N * P then pixel ((i * N + j) / P) ((i * N + j) % P) else 0

end Sia

namespace Sia

/-- The eight symmetries of an `n x n` grid: optionally swap the coordinates, then optionally reflect each of them.
(Rotation by 90 degrees is swap with one reflection, by 180 degrees both reflections.) -/
def squareSymmetry (n : Nat) (swap flip1 flip2 : Bool) (i j : Nat) : Nat × Nat :=
  let p := if swap then (j, i) else (i, j)
  (if flip1 then n - 1 - p.1 else p.1, if flip2 then n - 1 - p.2 else p.2)

end Sia
