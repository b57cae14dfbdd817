import Verif.Model.Float

/-! Specification vocabulary for three-bit quantization. -/
namespace Sia
open FloatOps

/-- No cell number `floor(f / step)`, saturated to `i64` as the `as i64` cast does, is the least `i64`, -9223372036854775808. -/
def FeaturesInRange {F : Type} [FloatOps F] (fs : List F) (step : F) : Prop :=
  ∀ f ∈ fs, truncSat (-9223372036854775808) 9223372036854775807 (FloatOps.floor (div f step)) ≠ -9223372036854775808

end Sia
