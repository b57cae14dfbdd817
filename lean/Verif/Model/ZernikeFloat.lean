import Verif.Model.Zernike

/-! Model of `lib/sia/rust/zernike/src/{calc,lib}.rs` and `utils/src/math.rs` in machine arithmetic: the same functions as in
Verif/Model/Zernike.lean, operation by operation, over any float type and any mathematical library. (There `f64` is replaced by
`ℝ`; Verif/Props/ZernikeFloatProps.lean bounds the distance between the two.) -/
namespace Sia
open FloatOps

/-- The functions of the platform's mathematical library and of the `puruspe` crate the code uses: `f64::powf`, `sqrt`, `atan2`,
`hypot` (`Complex::abs`), `exp`, `cos`, `sin` (`Complex::exp`) and `puruspe::gamma`. utils/src/math.rs:1; zernike/src/calc.rs:33-67;
zernike/src/lib.rs:22-25. -/
structure Libm (F : Type) where
  powf : F → F → F
  sqrt : F → F
  atan2 : F → F → F
  hypot : F → F → F
  exp : F → F
  cos : F → F
  sin : F → F
  gamma : F → F

section
variable {F : Type} [FloatOps F]

/-- `x == 0.`, utils/src/math.rs:4; zernike/src/calc.rs:34, 62. -/
def isZeroF (x : F) : Bool := ge x (ofInt 0) && ge (ofInt 0) x

/-- `f64::trunc`, part of `fract`, utils/src/math.rs:4. -/
def truncF (x : F) : F := if ge x (ofInt 0) then FloatOps.floor x else sub (ofInt 0) (FloatOps.floor (sub (ofInt 0) x))

/-- `f64::fract`, utils/src/math.rs:4: `self - self.trunc()`. -/
def fractF (x : F) : F := sub x (truncF x)

/-- `factorial`, utils/src/math.rs:3-11, cut off after `fuel` nested calls. -/
def factorialFuelF (M : Libm F) : Nat → F → Option F
  | 0, _ => none
  | fuel + 1, num =>
    if !(isZeroF (fractF num)) then some (M.gamma (add (ofInt 1) num))
    else
      let k := truncSat (-(2 ^ 63)) (2 ^ 63 - 1) (FloatOps.round num)
      if k = 0 ∨ k = 1 then some (ofInt 1) else (factorialFuelF M fuel (sub num (ofInt 1))).map (mul · num)

open Classical in
/-- `factorial`, utils/src/math.rs:3-11: the result of the recursion; a recursion that never ends overflows the stack. -/
noncomputable def factorialF (M : Libm F) (num : F) : Res F :=
  if h : ∃ r fuel, factorialFuelF M fuel num = some r then .ok h.choose else .error .stackOverflow

/-- `f`, zernike/src/calc.rs:33-46 (`s` is always a loop counter). -/
noncomputable def zfF (M : Libm F) (order index s : Nat) (r : F) : Res F := do
  let term : F :=
    if isZeroF r && isZeroF (sub (ofInt order : F) (mul (ofInt 2) (ofInt s))) then ofInt 1
    else M.powf r (ofInt ((order : ℤ) - 2 * s))
  let numerator ← factorialF M (sub (ofInt order) (ofInt s))
  let denominator1 ← factorialF M (ofInt s)
  let denominator2 ← factorialF M (sub (div (add (ofInt order) (ofInt index)) (ofInt 2)) (ofInt s))
  let denominator3 ← factorialF M (sub (div (sub (ofInt order) (ofInt index)) (ofInt 2)) (ofInt s))
  return mul (div numerator (mul (mul denominator1 denominator2) denominator3)) term

/-- The closure of the fold in `radial`, zernike/src/calc.rs:50-52. -/
noncomputable def radialStepF (M : Libm F) (order index : Nat) (r accumulator : F) (s : Nat) : Res F := do
  let y ← zfF M order index s r
  return add accumulator (mul (M.powf (ofInt (-1)) (ofInt s)) y)

/-- `radial`, zernike/src/calc.rs:48-53. -/
noncomputable def radialF (M : Libm F) (order index : Nat) (r : F) : Res F :=
  let last := truncSat 0 (2 ^ 64 - 1) (FloatOps.floor (div (sub (ofInt order : F) (ofInt index)) (ofInt 2)))
  (List.range (last.toNat + 1)).foldlM (radialStepF M order index r) (ofInt 0)

/-- `v`, zernike/src/calc.rs:55-57, as a pair of real and imaginary part. `I * index as f64 * theta` multiplies both parts,
`Complex::exp` is `from_polar(re.exp(), im)`, and a real number times a complex one multiplies both parts (num-complex 0.4; the
special treatment of an infinite real part in newer versions is not modelled, the real part is 0 here). -/
noncomputable def zvF (M : Libm F) (order index : Nat) (r theta : F) : Res (F × F) := do
  let y ← radialF M order index r
  let re := mul (mul (ofInt 0) (ofInt index)) theta
  let im := mul (mul (ofInt 1) (ofInt index)) theta
  let modulus := M.exp re
  return (mul y (mul modulus (M.cos im)), mul y (mul modulus (M.sin im)))

/-- One coordinate of `to_polar`, zernike/src/calc.rs:60-61. -/
def coordF (x : F) (dimension : Nat) : F :=
  div (mul frac1Sqrt2 (sub (add (ofInt 1) (ofInt dimension)) (mul (ofInt 2) x))) (sub (ofInt 1) (ofInt dimension))

/-- `to_polar`, zernike/src/calc.rs:59-67. -/
def toPolarF (M : Libm F) (x y : F) (dimension : Nat) : F × F :=
  let xc := coordF x dimension
  let yc := coordF y dimension
  if isZeroF xc && isZeroF yc then (ofInt 0, ofInt 0)
  else (M.sqrt (add (M.powf xc (ofInt 2)) (M.powf yc (ofInt 2))), M.atan2 yc xc)

/-- One entry of `get_zernike_matrix`, zernike/src/calc.rs:73-79. The conjugate negates the imaginary part; `0 - x` is `-x` up to
the sign of zero. -/
noncomputable def zernikeEntryF (M : Libm F) (order index dimension i : Nat) : Res (F × F) := do
  let y : F := ofInt ((i % dimension + 1 : Nat) : ℤ)
  let x : F := add (FloatOps.floor (div (ofInt i) (ofInt dimension))) (ofInt 1)
  let (radius, angle) := toPolarF M x y dimension
  let w ← zvF M order index radius angle
  return (w.1, sub (ofInt 0) w.2)

/-- `get_zernike_matrix(..).into_raw_vec()`, zernike/src/calc.rs:69-82 (the index is never negative at its call site). -/
noncomputable def getZernikeMatrixF (M : Libm F) (order index dimension : Nat) : Res (List (F × F)) :=
  (List.range (dimension * dimension)).mapM (zernikeEntryF M order index dimension)

/-- The closure of the fold in `calculate_zernike_image_moment`, zernike/src/calc.rs:19-24. -/
def momentStepF (matrix : List (F × F)) (accumulator : F × F) (x : UInt8 × Nat) : Res (F × F) :=
  match matrix[x.2]? with
  | none => .error .unwrapNone
  | some multiplier =>
    let next : F := ofInt x.1.toNat
    .ok (add accumulator.1 (mul multiplier.1 next), add accumulator.2 (mul multiplier.2 next))

/-- `std::f64::consts::PI`, zernike/src/calc.rs:1, 28. -/
def piF : F := lit (884279719003555 / 281474976710656)

/-- `calculate_zernike_image_moment`, zernike/src/calc.rs:8-31. -/
noncomputable def zernikeMomentF (M : Libm F) (order index : Nat) (image : Mat UInt8) : Res (F × F) := do
  let width := image.rows
  let height := image.cols
  let matrix ← getZernikeMatrixF M order index width
  let integral ← image.toList.zipIdx.foldlM (momentStepF matrix) (ofInt 0, ofInt 0)
  let multiplier : F := div (add (ofInt order) (ofInt 1)) piF
  let pixelsAmount : F := ofInt ((width * height : Nat) : ℤ)
  return (div (mul multiplier integral.1) pixelsAmount, div (mul multiplier integral.2) pixelsAmount)

/-- `ZernikeFeaturesCalculator::calculate_features`, zernike/src/lib.rs:14-27. -/
noncomputable def zernikeFeaturesF (M : Libm F) (image : Mat UInt8) (featuresAmount : Nat) : Res (List F) := do
  let order ← orderByFeaturesAmount featuresAmount
  (momentIndices order).mapM fun index => do
    let m ← zernikeMomentF M order index image
    return M.hypot m.1 m.2

end
end Sia
