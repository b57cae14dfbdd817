import Mathlib.Tactic.LinearCombination
import Mathlib.Tactic.FieldSimp
import Mathlib.Tactic.Ring
import Mathlib.Algebra.Field.Basic
import Mathlib.Algebra.Group.Defs

/-! The group law of twisted Edwards curves `-x² + y² = 1 + d x² y²` over a field in which `-1` is a square and `d` is not
(C80). -/
namespace Sia.Edwards

variable {K : Type} [Field K]

/-- The curve. -/
def On (d x y : K) : Prop := -x ^ 2 + y ^ 2 = 1 + d * x ^ 2 * y ^ 2

/-- The sum of two points. -/
def addX (d x1 y1 x2 y2 : K) : K := (x1 * y2 + y1 * x2) / (1 + d * x1 * x2 * y1 * y2)
def addY (d x1 y1 x2 y2 : K) : K := (y1 * y2 + x1 * x2) / (1 - d * x1 * x2 * y1 * y2)

/-- What makes the addition complete. -/
structure Complete (d : K) : Prop where
  two : (2 : K) ≠ 0
  sqrt : ∃ i : K, i ^ 2 = -1
  nonsquare : ∀ z : K, z ^ 2 ≠ d

theorem no_unit {d : K} (hd : Complete d) {x1 y1 x2 y2 : K} (h1 : On d x1 y1) (h2 : On d x2 y2) :
    (d * x1 * x2 * y1 * y2) ^ 2 ≠ 1 := by
  intro hε
  obtain ⟨i, hi⟩ := hd.sqrt
  unfold On at h1 h2
  set ε := d * x1 * x2 * y1 * y2 with hεd
  have hε0 : ε ≠ 0 := by rintro h; rw [h] at hε; norm_num at hε
  have hx1 : x1 ≠ 0 := by rintro rfl; exact hε0 (by rw [hεd]; ring)
  have hx2 : x2 ≠ 0 := by rintro rfl; exact hε0 (by rw [hεd]; ring)
  have hy1 : y1 ≠ 0 := by rintro rfl; exact hε0 (by rw [hεd]; ring)
  have hy2 : y2 ≠ 0 := by rintro rfl; exact hε0 (by rw [hεd]; ring)
  have hi0 : i ≠ 0 := by rintro rfl; norm_num at hi
  have k1 : (i * x1 + ε * y1) ^ 2 = d * (x1 * y1 * (i * x2 + y2)) ^ 2 := by
    linear_combination (x1 ^ 2 - d * x1 ^ 2 * y1 ^ 2 * x2 ^ 2) * hi + h1 - (d * x1 ^ 2 * y1 ^ 2) * h2 + (y1 ^ 2 - 1) * hε +
      (2 * i * x1 * y1 + (1 : K) * (ε + d * x1 * x2 * y1 * y2)) * hεd
  have k2 : (i * x1 - ε * y1) ^ 2 = d * (x1 * y1 * (i * x2 - y2)) ^ 2 := by
    linear_combination (x1 ^ 2 - d * x1 ^ 2 * y1 ^ 2 * x2 ^ 2) * hi + h1 - (d * x1 ^ 2 * y1 ^ 2) * h2 + (y1 ^ 2 - 1) * hε +
      (-2 * i * x1 * y1 + (1 : K) * (ε + d * x1 * x2 * y1 * y2)) * hεd
  by_cases e1 : i * x2 + y2 = 0
  · by_cases e2 : i * x2 - y2 = 0
    · have : 2 * y2 = 0 := by linear_combination e1 - e2
      rcases mul_eq_zero.mp this with h | h
      exacts [hd.two h, hy2 h]
    · have hz : x1 * y1 * (i * x2 - y2) ≠ 0 := mul_ne_zero (mul_ne_zero hx1 hy1) e2
      refine hd.nonsquare ((i * x1 - ε * y1) / (x1 * y1 * (i * x2 - y2))) ?_
      rw [div_pow, k2]
      field_simp
  · have hz : x1 * y1 * (i * x2 + y2) ≠ 0 := mul_ne_zero (mul_ne_zero hx1 hy1) e1
    refine hd.nonsquare ((i * x1 + ε * y1) / (x1 * y1 * (i * x2 + y2))) ?_
    rw [div_pow, k1]
    field_simp

theorem denom_add {d : K} (hd : Complete d) {x1 y1 x2 y2 : K} (h1 : On d x1 y1) (h2 : On d x2 y2) :
    1 + d * x1 * x2 * y1 * y2 ≠ 0 := by
  intro h
  exact no_unit hd h1 h2 (by linear_combination (d * x1 * x2 * y1 * y2 - 1) * h)

theorem denom_sub {d : K} (hd : Complete d) {x1 y1 x2 y2 : K} (h1 : On d x1 y1) (h2 : On d x2 y2) :
    1 - d * x1 * x2 * y1 * y2 ≠ 0 := by
  intro h
  exact no_unit hd h1 h2 (by linear_combination (-(d * x1 * x2 * y1 * y2) - 1) * h)

theorem assoc_x {d x1 y1 x2 y2 x3 y3 : K} (h1 : y1 ^ 2 - x1 ^ 2 - (1 + d * x1 ^ 2 * y1 ^ 2) = 0)
    (h2 : y2 ^ 2 - x2 ^ 2 - (1 + d * x2 ^ 2 * y2 ^ 2) = 0) (h3 : y3 ^ 2 - x3 ^ 2 - (1 + d * x3 ^ 2 * y3 ^ 2) = 0) :
    ((x1 * y2 + y1 * x2) * (1 - d * x1 * x2 * y1 * y2) * y3 + (y1 * y2 + x1 * x2) * (1 + d * x1 * x2 * y1 * y2) * x3) *
        ((1 + d * x2 * x3 * y2 * y3) * (1 - d * x2 * x3 * y2 * y3) + d * (x2 * y3 + y2 * x3) * (y2 * y3 + x2 * x3) * x1 * y1) =
      (x1 * (y2 * y3 + x2 * x3) * (1 + d * x2 * x3 * y2 * y3) + y1 * (x2 * y3 + y2 * x3) * (1 - d * x2 * x3 * y2 * y3)) *
        ((1 + d * x1 * x2 * y1 * y2) * (1 - d * x1 * x2 * y1 * y2) + d * (x1 * y2 + y1 * x2) * (y1 * y2 + x1 * x2) * x3 * y3) := by
  linear_combination
    (
      -d^2*x1*x2^4*y2^3*x3^2*y3 - d^2*x1*x2^3*y2^4*x3*y3^2 + d^2*y1*x2^4*y2^3*x3*y3^2 + d^2*y1*x2^3*y2^4*x3^2*y3 -
      d*x1*x2^4*y2*x3^2*y3 - d*x1*x2^3*y2^2*x3^3 - d*x1*x2^3*y2^2*x3 + d*x1*x2^2*y2^3*y3^3 - d*x1*x2^2*y2^3*y3 +
      d*x1*x2*y2^4*x3*y3^2 + d*y1*x2^4*y2*x3*y3^2 + d*y1*x2^3*y2^2*y3^3 - d*y1*x2^3*y2^2*y3 - d*y1*x2^2*y2^3*x3^3 -
      d*y1*x2^2*y2^3*x3 - d*y1*x2*y2^4*x3^2*y3) * h1 +
    (
      d^2*x1^2*y1*x2^2*y2*x3^3*y3^2 - d^2*x1^2*y1*x2*y2^2*x3^2*y3^3 - d^2*x1*y1^2*x2^2*y2*x3^2*y3^3 +
      d^2*x1*y1^2*x2*y2^2*x3^3*y3^2 + d*x1^3*x2^2*y2*x3^2*y3 + d*x1^3*x2*y2^2*x3*y3^2 + d*x1^3*x2*x3^3*y3^2 +
      d*x1^3*y2*x3^2*y3^3 - d*x1^2*y1*x2^2*y2*x3*y3^2 - d*x1^2*y1*x2*y2^2*x3^2*y3 + d*x1^2*y1*x2*x3^2*y3^3 +
      d*x1^2*y1*y2*x3^3*y3^2 - d*x1*y1^2*x2^2*y2*x3^2*y3 - d*x1*y1^2*x2*y2^2*x3*y3^2 - d*x1*y1^2*x2*x3^3*y3^2 -
      d*x1*y1^2*y2*x3^2*y3^3 + d*x1*x2^2*y2*x3^2*y3 + d*x1*x2*y2^2*x3*y3^2 + d*x1*x2*x3^3*y3^2 + d*x1*y2*x3^2*y3^3 +
      d*y1^3*x2^2*y2*x3*y3^2 + d*y1^3*x2*y2^2*x3^2*y3 - d*y1^3*x2*x3^2*y3^3 - d*y1^3*y2*x3^3*y3^2 -
      d*y1*x2^2*y2*x3*y3^2 - d*y1*x2*y2^2*x3^2*y3 + d*y1*x2*x3^2*y3^3 + d*y1*y2*x3^3*y3^2 + x1^3*x2*x3^3 -
      x1^3*x2*x3*y3^2 + x1^3*x2*x3 + x1^3*y2*x3^2*y3 - x1^3*y2*y3^3 + x1^3*y2*y3 + x1^2*y1*x2*x3^2*y3 - x1^2*y1*x2*y3^3
      + x1^2*y1*x2*y3 + x1^2*y1*y2*x3^3 - x1^2*y1*y2*x3*y3^2 + x1^2*y1*y2*x3 - x1*y1^2*x2*x3^3 + x1*y1^2*x2*x3*y3^2 -
      x1*y1^2*x2*x3 - x1*y1^2*y2*x3^2*y3 + x1*y1^2*y2*y3^3 - x1*y1^2*y2*y3 + x1*x2*x3^3 - x1*x2*x3*y3^2 + x1*x2*x3 +
      x1*y2*x3^2*y3 - x1*y2*y3^3 + x1*y2*y3 - y1^3*x2*x3^2*y3 + y1^3*x2*y3^3 - y1^3*x2*y3 - y1^3*y2*x3^3 +
      y1^3*y2*x3*y3^2 - y1^3*y2*x3 + y1*x2*x3^2*y3 - y1*x2*y3^3 + y1*x2*y3 + y1*y2*x3^3 - y1*y2*x3*y3^2 + y1*y2*x3) * h2 +
    (
      -d*x1^2*y1*x2^2*y2*x3 + d*x1^2*y1*x2*y2^2*y3 + d*x1*y1^2*x2^2*y2*y3 - d*x1*y1^2*x2*y2^2*x3 - x1^3*x2^3*x3 -
      x1^3*x2^2*y2*y3 + x1^3*x2*y2^2*x3 - x1^3*x2*x3 + x1^3*y2^3*y3 - x1^3*y2*y3 - x1^2*y1*x2^3*y3 - x1^2*y1*x2^2*y2*x3
      + x1^2*y1*x2*y2^2*y3 - x1^2*y1*x2*y3 + x1^2*y1*y2^3*x3 - x1^2*y1*y2*x3 + x1*y1^2*x2^3*x3 + x1*y1^2*x2^2*y2*y3 -
      x1*y1^2*x2*y2^2*x3 + x1*y1^2*x2*x3 - x1*y1^2*y2^3*y3 + x1*y1^2*y2*y3 - x1*x2^3*x3 - x1*x2^2*y2*y3 + x1*x2*y2^2*x3
      - x1*x2*x3 + x1*y2^3*y3 - x1*y2*y3 + y1^3*x2^3*y3 + y1^3*x2^2*y2*x3 - y1^3*x2*y2^2*y3 + y1^3*x2*y3 - y1^3*y2^3*x3
      + y1^3*y2*x3 - y1*x2^3*y3 - y1*x2^2*y2*x3 + y1*x2*y2^2*y3 - y1*x2*y3 + y1*y2^3*x3 - y1*y2*x3) * h3

theorem assoc_y {d x1 y1 x2 y2 x3 y3 : K} (h1 : y1 ^ 2 - x1 ^ 2 - (1 + d * x1 ^ 2 * y1 ^ 2) = 0)
    (h2 : y2 ^ 2 - x2 ^ 2 - (1 + d * x2 ^ 2 * y2 ^ 2) = 0) (h3 : y3 ^ 2 - x3 ^ 2 - (1 + d * x3 ^ 2 * y3 ^ 2) = 0) :
    ((y1 * y2 + x1 * x2) * (1 + d * x1 * x2 * y1 * y2) * y3 + (x1 * y2 + y1 * x2) * (1 - d * x1 * x2 * y1 * y2) * x3) *
        ((1 + d * x2 * x3 * y2 * y3) * (1 - d * x2 * x3 * y2 * y3) - d * (x2 * y3 + y2 * x3) * (y2 * y3 + x2 * x3) * x1 * y1) =
      (y1 * (y2 * y3 + x2 * x3) * (1 + d * x2 * x3 * y2 * y3) + x1 * (x2 * y3 + y2 * x3) * (1 - d * x2 * x3 * y2 * y3)) *
        ((1 + d * x1 * x2 * y1 * y2) * (1 - d * x1 * x2 * y1 * y2) - d * (x1 * y2 + y1 * x2) * (y1 * y2 + x1 * x2) * x3 * y3) := by
  linear_combination
    (
      d^2*x1*x2^4*y2^3*x3*y3^2 + d^2*x1*x2^3*y2^4*x3^2*y3 - d^2*y1*x2^4*y2^3*x3^2*y3 - d^2*y1*x2^3*y2^4*x3*y3^2 +
      d*x1*x2^4*y2*x3*y3^2 + d*x1*x2^3*y2^2*y3^3 - d*x1*x2^3*y2^2*y3 - d*x1*x2^2*y2^3*x3^3 - d*x1*x2^2*y2^3*x3 -
      d*x1*x2*y2^4*x3^2*y3 - d*y1*x2^4*y2*x3^2*y3 - d*y1*x2^3*y2^2*x3^3 - d*y1*x2^3*y2^2*x3 + d*y1*x2^2*y2^3*y3^3 -
      d*y1*x2^2*y2^3*y3 + d*y1*x2*y2^4*x3*y3^2) * h1 +
    (
      d^2*x1^2*y1*x2^2*y2*x3^2*y3^3 - d^2*x1^2*y1*x2*y2^2*x3^3*y3^2 - d^2*x1*y1^2*x2^2*y2*x3^3*y3^2 +
      d^2*x1*y1^2*x2*y2^2*x3^2*y3^3 - d*x1^3*x2^2*y2*x3*y3^2 - d*x1^3*x2*y2^2*x3^2*y3 + d*x1^3*x2*x3^2*y3^3 +
      d*x1^3*y2*x3^3*y3^2 + d*x1^2*y1*x2^2*y2*x3^2*y3 + d*x1^2*y1*x2*y2^2*x3*y3^2 + d*x1^2*y1*x2*x3^3*y3^2 +
      d*x1^2*y1*y2*x3^2*y3^3 + d*x1*y1^2*x2^2*y2*x3*y3^2 + d*x1*y1^2*x2*y2^2*x3^2*y3 - d*x1*y1^2*x2*x3^2*y3^3 -
      d*x1*y1^2*y2*x3^3*y3^2 - d*x1*x2^2*y2*x3*y3^2 - d*x1*x2*y2^2*x3^2*y3 + d*x1*x2*x3^2*y3^3 + d*x1*y2*x3^3*y3^2 -
      d*y1^3*x2^2*y2*x3^2*y3 - d*y1^3*x2*y2^2*x3*y3^2 - d*y1^3*x2*x3^3*y3^2 - d*y1^3*y2*x3^2*y3^3 +
      d*y1*x2^2*y2*x3^2*y3 + d*y1*x2*y2^2*x3*y3^2 + d*y1*x2*x3^3*y3^2 + d*y1*y2*x3^2*y3^3 + x1^3*x2*x3^2*y3 -
      x1^3*x2*y3^3 + x1^3*x2*y3 + x1^3*y2*x3^3 - x1^3*y2*x3*y3^2 + x1^3*y2*x3 + x1^2*y1*x2*x3^3 - x1^2*y1*x2*x3*y3^2 +
      x1^2*y1*x2*x3 + x1^2*y1*y2*x3^2*y3 - x1^2*y1*y2*y3^3 + x1^2*y1*y2*y3 - x1*y1^2*x2*x3^2*y3 + x1*y1^2*x2*y3^3 -
      x1*y1^2*x2*y3 - x1*y1^2*y2*x3^3 + x1*y1^2*y2*x3*y3^2 - x1*y1^2*y2*x3 + x1*x2*x3^2*y3 - x1*x2*y3^3 + x1*x2*y3 +
      x1*y2*x3^3 - x1*y2*x3*y3^2 + x1*y2*x3 - y1^3*x2*x3^3 + y1^3*x2*x3*y3^2 - y1^3*x2*x3 - y1^3*y2*x3^2*y3 +
      y1^3*y2*y3^3 - y1^3*y2*y3 + y1*x2*x3^3 - y1*x2*x3*y3^2 + y1*x2*x3 + y1*y2*x3^2*y3 - y1*y2*y3^3 + y1*y2*y3) * h2 +
    (
      -d*x1^2*y1*x2^2*y2*y3 + d*x1^2*y1*x2*y2^2*x3 + d*x1*y1^2*x2^2*y2*x3 - d*x1*y1^2*x2*y2^2*y3 - x1^3*x2^3*y3 -
      x1^3*x2^2*y2*x3 + x1^3*x2*y2^2*y3 - x1^3*x2*y3 + x1^3*y2^3*x3 - x1^3*y2*x3 - x1^2*y1*x2^3*x3 - x1^2*y1*x2^2*y2*y3
      + x1^2*y1*x2*y2^2*x3 - x1^2*y1*x2*x3 + x1^2*y1*y2^3*y3 - x1^2*y1*y2*y3 + x1*y1^2*x2^3*y3 + x1*y1^2*x2^2*y2*x3 -
      x1*y1^2*x2*y2^2*y3 + x1*y1^2*x2*y3 - x1*y1^2*y2^3*x3 + x1*y1^2*y2*x3 - x1*x2^3*y3 - x1*x2^2*y2*x3 + x1*x2*y2^2*y3
      - x1*x2*y3 + x1*y2^3*x3 - x1*y2*x3 + y1^3*x2^3*x3 + y1^3*x2^2*y2*y3 - y1^3*x2*y2^2*x3 + y1^3*x2*x3 - y1^3*y2^3*y3
      + y1^3*y2*y3 - y1*x2^3*x3 - y1*x2^2*y2*y3 + y1*x2*y2^2*x3 - y1*x2*x3 + y1*y2^3*y3 - y1*y2*y3) * h3

end Sia.Edwards
