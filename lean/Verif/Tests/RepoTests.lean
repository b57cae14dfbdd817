import Verif.Model.PseudoRandom
import Verif.Model.Quantization
import Verif.Model.Utils
import Verif.Model.Cli
import Verif.Props.LdpcProps

/-! The repository's own unit tests, run on the model by kernel evaluation in IEEE binary64. These are tests of the model's
faithfulness, not proofs of properties: no claim rests on them. -/
namespace Sia.RepoTests
open Sia

/-- A list of numbers as doubles. -/
def f64s (l : List ℚ) : List F64 := l.map F64.ofRat

/-- Features with pseudo-random noise, as in three-bit-quantization/src/lib.rs:202-209 and 251-257. -/
def noised : PseudoRandom → F64 → List F64 → Res (List F64 × PseudoRandom)
  | g, _, [] => .ok ([], g)
  | g, step, f :: fs => do
    let (noise, g') ← g.generate (F64.neg step) step
    let (rest, g'') ← noised g' step fs
    return (F64.add f noise :: rest, g'')

/-- `(1..n+1).map(|_| random.generate(lower, upper))`. -/
def randoms : PseudoRandom → F64 → F64 → Nat → Res (List F64 × PseudoRandom)
  | g, _, _, 0 => .ok ([], g)
  | g, lower, upper, n + 1 => do
    let (x, g') ← g.generate lower upper
    let (rest, g'') ← randoms g' lower upper n
    return (x :: rest, g'')

/-- `quantization_short_test`, three-bit-quantization/src/lib.rs:185-221. -/
def quantizationShort : Res Bool := do
  let features := f64s [112 / 100, 373 / 100, -26024 / 1000, -3251 / 100]
  let step := F64.ofRat 1
  let (quantized, perturbation) ← threeBitQuantization features step
  let (noisy, _) ← noised ⟨0⟩ step features
  let restored ← threeBitDequantization noisy perturbation step
  return decide (quantized = [1, 3, -27, -33]) &&
    decide (perturbation = [false, false, false, true, false, true, false, false, true, true, false, false]) &&
    decide (restored = quantized)

example : quantizationShort = .ok true := by decide +kernel

/-- One round of `quantization_long_test`, three-bit-quantization/src/lib.rs:243-271, with `n` features. -/
def quantizationRound (g : PseudoRandom) (n : Nat) (step : F64) : Res (Bool × PseudoRandom) := do
  let (features, g1) ← randoms g (F64.ofRat (-10)) (F64.ofRat 10) n
  let (quantized, perturbation) ← threeBitQuantization features step
  let (noisy, g2) ← noised g1 step features
  let restored ← threeBitDequantization noisy perturbation step
  return (decide (restored = quantized), g2)

/-- `quantization_long_test`, three-bit-quantization/src/lib.rs:224-273. -/
def quantizationLong (n : Nat) : PseudoRandom → List F64 → Res Bool
  | _, [] => .ok true
  | g, s :: ss => do
    let (ok, g') ← quantizationRound g n s
    let rest ← quantizationLong n g' ss
    return ok && rest

/-- The steps of three-bit-quantization/src/lib.rs:227-242 (`E` and `PI` by their binary64 values). -/
def steps : List F64 := f64s [3 / 100, 125 / 1000, 256 / 1000, 1 / 2, 1, 1125 / 1000, 1256 / 1000, 3 / 2, 225 / 100,
  271828182845904523536028747135266249 / 10 ^ 35, 314159265358979323846264338327950288 / 10 ^ 35, 99 / 10, 10, 15]

/-- The first three features of every round are checked by the kernel; the interpreter gives the same verdict on all 1023. -/
example : quantizationLong 3 ⟨0⟩ steps = .ok true := by decide +kernel

/-- `integer_from_two_bits_test`, `two_bits_from_integer_test`, `mod_four_test`, three-bit-quantization/src/lib.rs:276-314. -/
example : integerFromTwoBits false false = 0 ∧ integerFromTwoBits false true = 1 ∧ integerFromTwoBits true false = 2 ∧
    integerFromTwoBits true true = 3 ∧ twoBitsFromInteger 0 = (false, false) ∧ twoBitsFromInteger 1 = (false, true) ∧
    twoBitsFromInteger 2 = (true, false) ∧ twoBitsFromInteger 3 = (true, true) ∧
    [-8, -7, -6, -5, -4, -3, -2, -1, 0, 1, 2, 3, 4, 5, 6, 7, 8].map modFour =
      [0, 1, 2, 3, 0, 1, 2, 3, 0, 1, 2, 3, 0, 1, 2, 3, 0] := by decide +kernel

/-- `bytes_format_test_1`, `bytes_format_test_2`, three-bit-quantization/src/lib.rs:317-342. -/
example : ∀ p ∈ [[false, false, false, true, false, true, false, false, true, true, false, false],
    [false, false, false, true, false, true, false, false, true, true, false, false, false, false, true]],
    perturbationVectorFromBytes (perturbationVectorAsBytes p) p.length = p := by decide +kernel

/-- `integers_i64_to_bytes_test`, `integers_u16_to_bytes_test`, utils/src/bytes.rs:44-69. -/
example : vecI64FromBytes (vecI64ToBytes [-324324, 45436346, -2132145325, 2, 0, -90]) =
      .ok [-324324, 45436346, -2132145325, 2, 0, -90] ∧
    vecU16FromBytes (vecU16ToBytes [65535, 6555, 5535, 0]) = .ok [65535, 6555, 5535, 0] := by decide +kernel

/-- `hex_encode_decode_test`, utils/src/format.rs:22-31. -/
example : decodeHex (encodeHex [12, 34, 56, 78, 90]) = .ok (some [12, 34, 56, 78, 90]) := by decide +kernel

/-- `get_capacity_test`, embedding/src/io/steganography.rs:154-158. -/
example : getCapacity 16 16 = 32 ∧ getCapacity 24 24 = 72 ∧ getCapacity 64 64 = 512 := by decide +kernel

/-- `get_code_test`, `bytes_to_u16_conversion_test`, encoding/src/lib.rs. -/
example : getCodeForEncode 1 = none ∧ getCodeForEncode 9 = some .TC128 ∧ getCodeForEncode 64 = some .TC128 ∧
    getCodeForEncode 65 = some .TC256 ∧ getCodeForEncode 128 = some .TC256 ∧ getCodeForEncode 129 = some .TC512 ∧
    getCodeForEncode 256 = some .TC512 ∧ getCodeForEncode 257 = some .TM2048 ∧ getCodeForEncode 1024 = some .TM2048 ∧
    getCodeForEncode 1025 = some .TM8192 ∧ getCodeForEncode 4096 = some .TM8192 := by decide +kernel

example : u16ToBytes 65535 = (255, 255) ∧ bytesToU16 255 255 = 65535 ∧ u16ToBytes 31411 = (122, 179) ∧
    bytesToU16 122 179 = 31411 := by decide +kernel

/-- `get_watermark_data_test`, watermarking/src/watermark.rs:88-105. -/
def testWatermark : Watermark where
  perturbationVector := [false, false, false, true, false, true, false, false, true, true, false, false]
  signature := [123, 42, 56, 54]
  text := "Hello World!"

example : (testWatermark.serialize >>= deserializeWatermark) = .ok testWatermark := by decide +kernel

instance : Inhabited F64 := ⟨.fin 0⟩

/-- `io_write_and_read_test_with_1_byte_capacity`, embedding/src/io/mod.rs:24-43. -/
def ioTest : Res (List UInt8) := do
  let domain ← vector2dAsNdArray [f64s [8735 / 10, 9065 / 10, 1104875 / 1000, 944625 / 1000],
    f64s [97675 / 100, 9255 / 10, 1032125 / 1000, 107825 / 100], f64s [1028125 / 1000, 1057, 1051875 / 1000, 998625 / 1000],
    f64s [985125 / 1000, 978625 / 1000, 991125 / 1000, 102375 / 100]]
  let written ← write domain [17, 19] (F64.ofRat 10)
  read written (F64.ofRat 10)

example : ioTest = .ok [17, 19] := by decide +kernel

/-- The rows of a matrix one after the other. -/
def rowsOf {α : Type} (m : Mat α) : List α := m.toList

/-- `dwt_2d_test_level_1` and `dwt_2d_test_level_2`, embedding/src/haar/mod.rs:81-126. -/
def dwtTest (level : Nat) (expected : List ℚ) : Res Unit := do
  let source ← vector2dAsNdArray [f64s [1, 2, 3, 4], f64s [5, 6, 7, 8], f64s [1, 2, 3, 4], f64s [5, 6, 7, 8]]
  let forward ← dwt2d source level false
  assertApprox1d (f64s expected) (rowsOf forward)
  let backward ← dwt2d forward level true
  assertApprox1d (rowsOf source) (rowsOf backward)

example : dwtTest 1 [7, 11, -1, -1, 7, 11, -1, -1, -4, -4, 0, 0, -4, -4, 0, 0] = .ok () := by decide +kernel
example : dwtTest 2 [18, -4, -1, -1, 0, 0, -1, -1, -4, -4, 0, 0, -4, -4, 0, 0] = .ok () := by decide +kernel
/-- and they do fail for a wrong expectation -/
example : dwtTest 2 [18, -4, -1, -1, 0, 0, -1, 1, -4, -4, 0, 0, -4, -4, 0, 0] = .error .assertionFailed := by decide +kernel

/-- `calculate_zernike_matrix_test` (of the generator), utils/src/pseudo_random.rs:29-42, the first ten numbers of each kind. -/
def randomTest : Res Bool := do
  let (us, g) ← (⟨0⟩ : PseudoRandom).units 10
  let (rs, _) ← randoms g (F64.ofRat (-2)) (F64.ofRat 5) 10
  return us.all (fun x => F64.ge x (F64.ofRat 0) && F64.ge (F64.ofRat 1) x) &&
    rs.all (fun x => F64.ge x (F64.ofRat (-2)) && F64.ge (F64.ofRat 5) x)

example : randomTest = .ok true := by decide +kernel

/-- `simple_encode_decode_test_2`, encoding/src/lib.rs:215-231: the lowest byte xored with 0x55, here for any data instead of `0..8`. -/
example (data received : List UInt8) (hd : data.length = 8) (hr : Flipped (Ldpc.ccsds.encode .TC128 data) received [1, 3, 5, 7]) :
    (Ldpc.ccsds.decode .TC128 received).take 8 = data :=
  Ldpc.ccsds_corrects_pattern .TC128 data received _ (by decide) hd hr (by decide +kernel)

end Sia.RepoTests
