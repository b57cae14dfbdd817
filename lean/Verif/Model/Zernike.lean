import Verif.Model.Basic
import Verif.Model.FloatReal
import Mathlib.Analysis.SpecialFunctions.Gamma.Basic
import Mathlib.Analysis.SpecialFunctions.Complex.Arg
import Mathlib.Analysis.SpecialFunctions.Pow.Real

/-! Model of `lib/sia/rust/zernike/src/{calc,lib}.rs`, `utils/src/math.rs` and `image-features/src/lib.rs` in exact real and
complex arithmetic. Simplification: `f64` is replaced by `ℝ` (no rounding, NaN or infinities), `puruspe::gamma` by the Gamma
function, `f64::atan2` by `Complex.arg`. A one-pixel-wide image divides by zero in `to_polar` (NaN in Rust, 0 here); theorems
about values assume dimension at least 2. -/
namespace Sia

/-- `factorial`, utils/src/math.rs:3-11, cut off after `fuel` nested calls. -/
noncomputable def factorialFuel : Nat → ℝ → Option ℝ
  | 0, _ => none
  | fuel + 1, num =>
    if Int.fract num ≠ 0 then some (Real.Gamma (1 + num))
    else
      let k := clampZ (-(2 ^ 63)) (2 ^ 63 - 1) (roundAway num)
      if k = 0 ∨ k = 1 then some 1 else (factorialFuel fuel (num - 1)).map (· * num)

open Classical in
/-- `factorial`, utils/src/math.rs:3-11: the result of the recursion; a recursion that never ends overflows the stack. -/
noncomputable def factorial (num : ℝ) : Res ℝ :=
  if h : ∃ r fuel, factorialFuel fuel num = some r then .ok h.choose else .error .stackOverflow

/-- `f`, zernike/src/calc.rs:33-46 (`s` is always a loop counter). -/
noncomputable def zf (order index s : Nat) (r : ℝ) : Res ℝ := do
  let term : ℝ := open Classical in
    if r = 0 ∧ (order : ℝ) - 2 * s = 0 then 1 else r ^ (((order : ℤ) - 2 * s : ℤ) : ℝ)
  let numerator ← factorial ((order : ℝ) - s)
  let denominator1 ← factorial (s : ℝ)
  let denominator2 ← factorial (((order : ℝ) + index) / 2 - s)
  let denominator3 ← factorial (((order : ℝ) - index) / 2 - s)
  return numerator / (denominator1 * denominator2 * denominator3) * term

/-- `radial`, zernike/src/calc.rs:48-53. The cast `as usize` of a negative number is 0 (and never saturates upwards, since
the order is itself a `usize`). -/
noncomputable def radial (order index : Nat) (r : ℝ) : Res ℝ := do
  let last := ⌊((order : ℝ) - index) / 2⌋.toNat
  (List.range (last + 1)).foldlM (fun accumulator s => do
    let y ← zf order index s r
    return accumulator + (-1 : ℝ) ^ (s : ℝ) * y) 0

/-- `v`, zernike/src/calc.rs:55-57. -/
noncomputable def zv (order index : Nat) (r theta : ℝ) : Res ℂ := do
  let y ← radial order index r
  return (y : ℂ) * Complex.exp (Complex.I * index * theta)

/-- `to_polar`, zernike/src/calc.rs:59-67. -/
noncomputable def toPolar (x y : ℝ) (dimension : Nat) : ℝ × ℝ :=
  let xc : ℝ := 1 / Real.sqrt 2 * (1 + dimension - 2 * x) / (1 - dimension)
  let yc : ℝ := 1 / Real.sqrt 2 * (1 + dimension - 2 * y) / (1 - dimension)
  open Classical in
  if xc = 0 ∧ yc = 0 then (0, 0)
  else (Real.sqrt (xc ^ (2 : ℝ) + yc ^ (2 : ℝ)), Complex.arg ⟨xc, yc⟩)

/-- One entry of `get_zernike_matrix`, zernike/src/calc.rs:73-79; `i / dimension` as in `getColumnAndRow`. -/
noncomputable def zernikeEntry (order index dimension i : Nat) : Res ℂ := do
  let y : ℝ := ((i % dimension + 1 : Nat) : ℝ)
  let x : ℝ := ((i / dimension + 1 : Nat) : ℝ)
  let (radius, angle) := toPolar x y dimension
  let w ← zv order index radius angle
  return (starRingEnd ℂ) w

/-- `get_zernike_matrix(..).into_raw_vec()`, zernike/src/calc.rs:69-82 (the index is never negative at its call site). -/
noncomputable def getZernikeMatrix (order index dimension : Nat) : Res (List ℂ) :=
  (List.range (dimension * dimension)).mapM (zernikeEntry order index dimension)

/-- The pixels of an image in the order of `Array2::iter` (row by row). zernike/src/calc.rs:19, 71. -/
def Mat.toList {α : Type} (m : Mat α) : List α :=
  (List.range (m.rows * m.cols)).map fun i => m.get (i / m.cols) (i % m.cols)

/-- The closure of the fold in `calculate_zernike_image_moment`, zernike/src/calc.rs:19-24. -/
noncomputable def momentStep (matrix : List ℂ) (accumulator : ℂ) (x : UInt8 × Nat) : Res ℂ :=
  match matrix[x.2]? with
  | none => .error .unwrapNone
  | some multiplier => .ok (accumulator + multiplier * (x.1.toNat : ℂ))

/-- `calculate_zernike_image_moment`, zernike/src/calc.rs:8-31. -/
noncomputable def zernikeMoment (order index : Nat) (image : Mat UInt8) : Res ℂ := do
  let width := image.rows
  let height := image.cols
  let matrix ← getZernikeMatrix order index width
  let integral ← image.toList.zipIdx.foldlM (momentStep matrix) (0 : ℂ)
  let multiplier : ℝ := ((order : ℝ) + 1) / Real.pi
  let pixelsAmount : ℝ := ((width * height : Nat) : ℝ)
  return (multiplier : ℂ) * integral / (pixelsAmount : ℂ)

/-- `get_order_by_features_amount`, zernike/src/lib.rs:31-33: `features_amount - 1` underflows for 0 (debug build). -/
def orderByFeaturesAmount (featuresAmount : Nat) : Res Nat :=
  if featuresAmount = 0 then .error .arithOverflow else .ok (1 + 2 * (featuresAmount - 1))

/-- `(start..=order).step_by(2)`, zernike/src/lib.rs:16-20. -/
def momentIndices (order : Nat) : List Nat :=
  let start := if order % 2 = 1 then 1 else 0
  (List.range ((order + 2 - start) / 2)).map fun k => start + 2 * k

/-- `ZernikeFeaturesCalculator::calculate_features`, zernike/src/lib.rs:14-27. -/
noncomputable def zernikeFeatures (image : Mat UInt8) (featuresAmount : Nat) : Res (List ℝ) := do
  let order ← orderByFeaturesAmount featuresAmount
  (momentIndices order).mapM fun index => do
    let m ← zernikeMoment order index image
    return ‖m‖

/-- `FeaturesType`, image-features/src/feature_types.rs:1-5. -/
inductive FeaturesType where
  | MomentsZernike | MomentsPseudoZernike | CentralFiniteDifferences
  deriving DecidableEq, Repr

/-- `calculate_features`, image-features/src/lib.rs:9-27. -/
noncomputable def calculateFeatures (image : Mat UInt8) (featuresType : FeaturesType) (featuresAmount : Nat) : Res (List ℝ) :=
  match featuresType with
  | .MomentsZernike => zernikeFeatures image featuresAmount
  | .MomentsPseudoZernike => .ok []
  | .CentralFiniteDifferences => .ok []

end Sia
