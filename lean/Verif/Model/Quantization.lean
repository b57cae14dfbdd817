import Verif.Model.Basic
import Verif.Model.Float

/-! Model of `lib/sia/rust/three-bit-quantization/src/lib.rs`. -/
namespace Sia
open FloatOps

/-- `funty::Fundamental::as_bool` on a `bool` is negation in the funty version used by bitvec 1.0.1
(`bool => |this: bool| !this`); the repository's own tests pin it down: `two_bits_from_integer(0) == (false, false)`
(three-bit-quantization/src/lib.rs:285) although the code negates the result. -/
def funtyAsBool (b : Bool) : Bool := !b

/-- `perturbation_vector_as_bytes`, three-bit-quantization/src/lib.rs:9-15. `copy_from_slice` cannot fail:
`ceil(len/8)` bytes on both sides. -/
def perturbationVectorAsBytes (bits : List Bool) : List UInt8 := packBits bits

/-- `perturbation_vector_from_bytes`, three-bit-quantization/src/lib.rs:17-37: push the (twice negated) bits of all
bytes while fewer than `n` have been pushed. -/
def perturbationVectorFromBytes (bytes : List UInt8) (n : Nat) : List Bool :=
  ((bytesBits bytes).take n).map fun b => !(funtyAsBool b)

/-- `i64::MIN`, three-bit-quantization/src/lib.rs:39-44. -/
def i64Min : Int := -2 ^ 63
/-- `i64::MAX`, three-bit-quantization/src/lib.rs:39-44. -/
def i64Max : Int := 2 ^ 63 - 1

section
variable {F : Type} [FloatOps F]

/-- One element of `quantize`, three-bit-quantization/src/lib.rs:39-44: `(feature / step).floor() as i64`. -/
def quantizeOne (step feature : F) : Int := truncSat i64Min i64Max (FloatOps.floor (div feature step))

/-- `quantize`, three-bit-quantization/src/lib.rs:39-44. -/
def quantize (features : List F) (step : F) : List Int := features.map (quantizeOne step)
end

/-- `mod_four`, three-bit-quantization/src/lib.rs:79-86 (`rem_euclid(4)`; the negative branch is dead). -/
def modFour (q : Int) : UInt8 :=
  let r := q % 4
  if r < 0 then UInt8.ofNat (r + 4).toNat else UInt8.ofNat r.toNat

/-- `integer_from_two_bits`, three-bit-quantization/src/lib.rs:88-92: bits `[bit1, bit0]`, least significant first,
loaded as an integer. -/
def integerFromTwoBits (bit0 bit1 : Bool) : Nat := bitsNat [bit1, bit0]

/-- `two_bits_from_integer`, three-bit-quantization/src/lib.rs:94-99. -/
def twoBitsFromInteger (n : UInt8) : Bool × Bool :=
  (!(funtyAsBool (n.toNat.testBit 1)), !(funtyAsBool (n.toNat.testBit 0)))

section
variable {F : Type} [FloatOps F]

/-- The three bits of one feature, three-bit-quantization/src/lib.rs:53-64. `*quantized_feature - 1` overflows for
`i64::MIN` (debug build; a release build wraps, which gives the same value modulo 4). -/
def featureBits (step feature : F) (q : Int) : Res (List Bool) :=
  if q = i64Min then .error .arithOverflow
  else
    let (bit0, bit1) := twoBitsFromInteger (modFour (q - 1))
    let b := mul step (add (ofInt q) (lit (1 / 2)))
    .ok [bit0, bit1, ge feature b]

/-- `three_bit_quantization`, three-bit-quantization/src/lib.rs:46-77. -/
def threeBitQuantization (features : List F) (step : F) : Res (List Int × List Bool) := do
  let quantized := quantize features step
  let bits ← (features.zip quantized).mapM fun (f, q) => featureBits step f q
  return (quantized, bits.flatten)

/-- The decision for one feature, three-bit-quantization/src/lib.rs:123-166: `g1 g2 g3` are the given bits, `c1 c2 c3`
the calculated ones. `i8` arithmetic on values 0..4 cannot overflow. -/
def restoreOne (step noised : F) (g1 g2 g3 c1 c2 c3 : Bool) : F :=
  let given : Int := integerFromTwoBits g1 g2
  let calculated : Int := integerFromTwoBits c1 c2
  let a : Nat :=
    if calculated = (given - 1) % 4 then 0
    else if calculated = (given + 1) % 4 then 1
    else 2
  if a = 0 ∧ g3 = false then add noised step
  else if a = 0 ∧ g3 = true ∧ c3 = true then add noised step
  else if a = 1 ∧ g3 = true then sub noised step
  else if a = 1 ∧ g3 = false ∧ c3 = false then sub noised step
  else noised

/-- The loop of `three_bit_dequantization`, three-bit-quantization/src/lib.rs:113-168. The code looks up the `i`-th
calculated chunk and the `i`-th feature with the loop counter `i`; here the three sequences are walked in lockstep.
A missing element or a short chunk is an `unwrap` panic. -/
def restoreLoop (step : F) : List (List Bool) → List (List Bool) → List F → Res (List F)
  | [], _, _ => .ok []
  | g :: gs, [c1, c2, c3] :: cs, f :: fs =>
    match g with
    | [g1, g2, g3] => do
      let rest ← restoreLoop step gs cs fs
      return restoreOne step f g1 g2 g3 c1 c2 c3 :: rest
    | _ => .error .unwrapNone
  | _ :: _, _, _ => .error .unwrapNone

/-- `three_bit_dequantization`, three-bit-quantization/src/lib.rs:101-171. -/
def threeBitDequantization (noised : List F) (given : List Bool) (step : F) : Res (List Int) := do
  let (_, calculated) ← threeBitQuantization noised step
  let restored ← restoreLoop step (chunks 3 given) (chunks 3 calculated) noised
  return quantize restored step

end
end Sia
