/-
Ideal arithmetic: the `FloatOps` instance on `ℝ`.
-/
import Verif.Model.Float
import Mathlib.Analysis.Real.Sqrt

namespace Sia

/-- Exact real arithmetic in place of `f64`. Simplification: no rounding, no NaN or infinities; division by
zero is junk, so every theorem about `ℝ` assumes the divisor positive. lib/sia/rust/**/*.rs. -/
noncomputable instance instFloatOpsReal : FloatOps ℝ where
  ofInt n := n
  lit q := q
  add := (· + ·)
  sub := (· - ·)
  mul := (· * ·)
  div := (· / ·)
  round x := roundAway x
  floor x := ⌊x⌋
  ge a b := by classical exact decide (b ≤ a)
  truncSat lo hi x := clampZ lo hi (truncZ x)
  frac1Sqrt2 := 1 / Real.sqrt 2

end Sia
