import Verif.Model.Float
import Mathlib.Analysis.Real.Sqrt

/-! The standard model of floating-point arithmetic: every operation returns the exact result up to the relative unit
roundoff `u` (plus a negligible absolute slack for underflow), as long as the exact result is far from overflow.
Both arithmetic instances of the model are proved to satisfy it (`Verif/Lemmas/FloatInstances.lean`): `ℝ` with `u = 0`
and IEEE binary64 with `u = 2^-53`. -/
namespace Sia

/-- Underflow slack. -/
noncomputable def omega : ℝ := 1 / 2 ^ 200

class LawfulFloat (F : Type) [FloatOps F] where
  /-- finite (neither NaN nor infinite) -/
  fin : F → Prop
  /-- the represented number -/
  val : F → ℝ
  /-- unit roundoff -/
  u : ℝ
  u_nonneg : 0 ≤ u
  u_le : u ≤ 1 / 2 ^ 53
  ofInt_spec : ∀ n : ℤ, |n| ≤ 2 ^ 53 → fin (FloatOps.ofInt n : F) ∧ val (FloatOps.ofInt n : F) = n
  ofInt_err : ∀ n : ℤ, |(n : ℝ)| ≤ 2 ^ 200 → fin (FloatOps.ofInt n : F) ∧
    |val (FloatOps.ofInt n : F) - n| ≤ u * (|(n : ℝ)| + omega)
  lit_dyadic : ∀ (m : ℤ) (k : ℕ), |m| ≤ 2 ^ 53 → k ≤ 100 →
    fin (FloatOps.lit ((m : ℚ) / 2 ^ k) : F) ∧ val (FloatOps.lit ((m : ℚ) / 2 ^ k) : F) = (m : ℝ) / 2 ^ k
  lit_err : ∀ q : ℚ, |(q : ℝ)| ≤ 2 ^ 200 → fin (FloatOps.lit q : F) ∧ |val (FloatOps.lit q : F) - q| ≤ u * (|(q : ℝ)| + omega)
  add_spec : ∀ a b : F, fin a → fin b → |val a + val b| ≤ 2 ^ 200 →
    fin (FloatOps.add a b) ∧ |val (FloatOps.add a b) - (val a + val b)| ≤ u * (|val a + val b| + omega)
  sub_spec : ∀ a b : F, fin a → fin b → |val a - val b| ≤ 2 ^ 200 →
    fin (FloatOps.sub a b) ∧ |val (FloatOps.sub a b) - (val a - val b)| ≤ u * (|val a - val b| + omega)
  mul_spec : ∀ a b : F, fin a → fin b → |val a * val b| ≤ 2 ^ 200 →
    fin (FloatOps.mul a b) ∧ |val (FloatOps.mul a b) - val a * val b| ≤ u * (|val a * val b| + omega)
  div_spec : ∀ a b : F, fin a → fin b → val b ≠ 0 → |val a / val b| ≤ 2 ^ 200 →
    fin (FloatOps.div a b) ∧ |val (FloatOps.div a b) - val a / val b| ≤ u * (|val a / val b| + omega)
  round_spec : ∀ a : F, fin a → fin (FloatOps.round a) ∧ val (FloatOps.round a) = roundAway (val a)
  floor_spec : ∀ a : F, fin a → fin (FloatOps.floor a) ∧ val (FloatOps.floor a) = ⌊val a⌋
  ge_spec : ∀ a b : F, fin a → fin b → (FloatOps.ge a b = true ↔ val b ≤ val a)
  truncSat_spec : ∀ (lo hi : ℤ) (a : F), fin a → FloatOps.truncSat lo hi a = clampZ lo hi (truncZ (val a))
  truncSat_range : ∀ (lo hi : ℤ) (a : F), lo ≤ 0 → 0 ≤ hi → lo ≤ FloatOps.truncSat lo hi a ∧ FloatOps.truncSat lo hi a ≤ hi
  frac_spec : fin (FloatOps.frac1Sqrt2 : F) ∧ |val (FloatOps.frac1Sqrt2 : F) - 1 / Real.sqrt 2| ≤ u

end Sia
