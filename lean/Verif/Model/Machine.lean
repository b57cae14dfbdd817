import Verif.Model.DynamicImage
import Verif.Model.PseudoRandom

/-! The library with the fixed-width integers of the compiled program: a second model of the functions whose integer arithmetic
could overflow or goes through `f64`, for debug and release builds and for 32-bit (wasm32, lib/sia/rust/web) and 64-bit targets.
The first model (Model/Embedding.lean and so on) uses unbounded integers; Props/MachineProps.lean proves that the two agree.
All floats are binary64 here. -/
namespace Sia

/-- A build of the library: whether integer overflow panics (`debug_assertions` / `overflow-checks`: on in the dev profile, off in the
release profile, lib/sia/rust/web/Cargo.toml:9-13) and the width of `usize`. -/
structure Target where
  checked : Bool
  bits : Nat

/-- The result of a `+`, `-` or `*` on a `w`-bit unsigned type: a panic or wrapping around. lib/sia/rust/**/*.rs. -/
def Target.unsigned (T : Target) (w : Nat) (x : Int) : Res Nat :=
  if 0 ≤ x ∧ x < 2 ^ w then .ok x.toNat else if T.checked then .error .arithOverflow else .ok (x % 2 ^ w).toNat

/-- The same on `usize`. lib/sia/rust/**/*.rs. -/
def Target.usize (T : Target) (x : Int) : Res Nat := T.unsigned T.bits x

/-- Wrapping to a `w`-bit two's complement number; also the cast `as i32`. embedding/src/haar/mod.rs:24-25. -/
def wrapSigned (w : Nat) (x : Int) : Int := x.bmod (2 ^ w)

/-- The result of a `-` or `pow` on a `w`-bit signed type. embedding/src/haar/mod.rs:24-25;
three-bit-quantization/src/lib.rs:54. -/
def Target.signed (T : Target) (w : Nat) (x : Int) : Res Int :=
  if -2 ^ (w - 1) ≤ x ∧ x < 2 ^ (w - 1) then .ok x else if T.checked then .error .arithOverflow else .ok (wrapSigned w x)

/-- The cast of an `i32` to `usize` (sign extension). embedding/src/haar/mod.rs:29-31; embedding/src/lib.rs:35-36. -/
def Target.asUsize (T : Target) (x : Int) : Nat := (x % 2 ^ T.bits).toNat

/-- `2_i32.pow(e as u32)`, embedding/src/haar/mod.rs:24-25; embedding/src/lib.rs:35-36. -/
def Target.pow2 (T : Target) (e : Nat) : Res Int := T.signed 32 (2 ^ (e % 2 ^ 32))

/-- `(a as f64 / b as f64).floor() as usize` for `usize` numbers. steganography.rs:19, 24. -/
def Target.floorQuotient (T : Target) (a b : Nat) : Nat :=
  (FloatOps.truncSat 0 (2 ^ T.bits - 1) (FloatOps.floor (FloatOps.div (FloatOps.ofInt (a : ℤ)) (FloatOps.ofInt (b : ℤ)) : F64))).toNat

/-- `source_width as i32 / 2_i32.pow(iteration as u32)`, embedding/src/haar/mod.rs:24-25. (The divisor is never -1.) -/
def Target.sideOf (T : Target) (side iteration : Nat) : Res Int := do
  let p ← T.pow2 iteration
  if p = 0 then throw .divisionByZero
  return Int.tdiv (wrapSigned 32 side) p

/-- One round of the loop of `dwt_2d`, embedding/src/haar/mod.rs:22-48; `split_at` asserts that the index is at most the length. -/
def Target.dwtIteration (T : Target) (backward : Bool) (m : Mat F64) (iteration : Nat) : Res (Mat F64) := do
  let width ← T.sideOf m.rows iteration
  let height ← T.sideOf m.cols iteration
  let w := T.asUsize width
  let h := T.asUsize height
  if m.rows < w ∨ m.cols < h then throw .indexOutOfRange
  if (0 < w ∧ h % 2 ≠ 0) ∨ (0 < h ∧ w % 2 ≠ 0) then throw .dwtLength
  return { m with get := colPass w h backward (rowPass w h backward m.get) }

/-- `dwt_2d`, embedding/src/haar/mod.rs:19-63: from 0 to `level - 1` or back. (Forward, the code evaluates `level - 1` after the first
round; nothing observable happens before.) -/
def Target.dwt2d (T : Target) (m : Mat F64) (level : Nat) (backward : Bool) : Res (Mat F64) := do
  let last ← T.usize ((level : Int) - 1)
  (if backward then (List.range (last + 1)).reverse else List.range (last + 1)).foldlM (T.dwtIteration backward) m

/-- `get_capacity`, steganography.rs:18-20. -/
def Target.getCapacity (T : Target) (width height : Nat) : Res Nat := do
  let product ← T.usize ((width : Int) * height)
  return T.floorQuotient product 8

/-- `get_column_and_row`, steganography.rs:22-26. -/
def Target.getColumnAndRow (T : Target) (offset width height : Nat) : Res (Nat × Nat) :=
  if width = 0 then .error .divisionByZero else .ok (offset % width, T.floorQuotient offset height)

/-- `write_bit`, steganography.rs:58-79. -/
def Target.writeBit (T : Target) (depth : F64) (st : Nat × Mat F64) (bit : Bool) : Res (Nat × Mat F64) := do
  let (offset, domain) := st
  let (column, row) ← T.getColumnAndRow offset domain.rows domain.cols
  if row < domain.rows ∧ column < domain.cols then
    let next ← T.usize ((offset : Int) + 1)
    return (next, domain.set row column (writeCell depth bit (domain.get row column)))
  else throw .unwrapNone

/-- `write`, steganography.rs:37-51, with `io::write` (io/mod.rs:10-18). -/
def Target.write (T : Target) (domain : Mat F64) (bytes : List UInt8) (depth : F64) : Res (Mat F64) := do
  let capacity ← T.getCapacity domain.rows domain.cols
  if capacity < bytes.length then throw .dataExceedsCapacity
  let st ← (bytesBits bytes).foldlM (T.writeBit depth) (0, domain)
  return st.2

/-- `read_bit`, steganography.rs:129-147: the bit and the offset afterwards. -/
def Target.readBit (T : Target) (domain : Mat F64) (depth : F64) (offset : Nat) : Res (Bool × Nat) := do
  let (column, row) ← T.getColumnAndRow offset domain.rows domain.cols
  if row < domain.rows ∧ column < domain.cols then
    let next ← T.usize ((offset : Int) + 1)
    return (readCell depth (domain.get row column), next)
  else throw .cellOutOfBounds

/-- `count` calls of `read_bit`, steganography.rs:124. -/
def Target.readBits (T : Target) (domain : Mat F64) (depth : F64) : (count offset : Nat) → Res (List Bool × Nat)
  | 0, offset => .ok ([], offset)
  | count + 1, offset => do
    let (bit, offset) ← T.readBit domain depth offset
    let (rest, offset) ← T.readBits domain depth count offset
    return (bit :: rest, offset)

/-- `count` calls of `read_next`, steganography.rs:111-119, 122-127. -/
def Target.readBytes (T : Target) (domain : Mat F64) (depth : F64) : (count offset : Nat) → Res (List UInt8)
  | 0, _ => .ok []
  | count + 1, offset => do
    let (bits, offset) ← T.readBits domain depth 8 offset
    let rest ← T.readBytes domain depth count offset
    return bitsByte bits :: rest

/-- `read`, steganography.rs:107-120, with `io::read` (io/mod.rs:20-23). -/
def Target.read (T : Target) (domain : Mat F64) (depth : F64) : Res (List UInt8) := do
  let dataLength ← T.getCapacity domain.rows domain.cols
  T.readBytes domain depth dataLength 0

/-- `get_code_by_codeword_length`, encoding/src/lib.rs:18-27. -/
def Target.getCode (T : Target) (codewordLength : Nat) : Res (Option LdpcCode) := do
  let bits ← T.usize ((codewordLength : Int) * 8)
  return if bits = 128 then some .TC128
    else if bits = 256 then some .TC256
    else if bits = 512 ∨ bits = 1024 then some .TC512
    else if bits = 2048 ∨ bits = 4096 then some .TM2048
    else if 8192 ≤ bits then some .TM8192
    else none

/-- `encode`, encoding/src/lib.rs:51-96; `input.len() as u16` keeps the low 16 bits. -/
def Target.encode (T : Target) (L : Ldpc) (input : List UInt8) (codewordLength : Nat) : Res (List UInt8) := do
  let (b1, b2) := u16ToBytes (input.length % 2 ^ 16)
  let bytes := [b1, b2] ++ input
  match ← T.getCode codewordLength with
  | none => return bytes
  | some code => return (chunks (code.k / 8) bytes).flatMap fun word => L.encode code (padWord word code.k)

/-- `decode`, encoding/src/lib.rs:104-144. -/
def Target.decode (T : Target) (L : Ldpc) (bytes : List UInt8) (codewordLength : Nat) : Res (List UInt8) := do
  match ← T.getCode codewordLength with
  | none => return bytes
  | some code =>
    let words ← (chunks (code.n / 8) bytes).mapM fun w =>
      if w.length = code.n / 8 then slice (L.decode code w) 0 (code.k / 8) else .error .ldpcBlockLength
    let decoded := words.flatten
    match decoded[0]?, decoded[1]? with
    | some b1, some b2 =>
      let stop ← T.usize ((bytesToU16 b1 b2 : Int) + 2)
      slice decoded 2 stop
    | _, _ => throw .indexOutOfRange

/-- `get_domain_capacity`, embedding/src/lib.rs:11-20. -/
def Target.getDomainCapacity (T : Target) (w h : Nat) : Res Nat := do
  let capacity ← T.getCapacity w h
  match getCodeForEncode capacity with
  | none => throw .capacityBelowMinimum
  | some _ => return capacity

/-- `width / ((2 as i32).pow(dwt_levels as u32) as usize)`, embedding/src/lib.rs:35-36, 65-66. -/
def Target.domainSide (T : Target) (side levels : Nat) : Res Nat := do
  let p ← T.pow2 levels
  if T.asUsize p = 0 then throw .divisionByZero
  return side / T.asUsize p

/-- `embed`, embedding/src/lib.rs:22-55. (`Data::serialize` adds small constants only.) -/
def Target.embed (T : Target) (L : Ldpc) (image : Mat UInt8) (bytes : List UInt8) (depth : F64) (levels : Nat) : Res (Mat UInt8) := do
  let coefficients ← T.dwt2d (image.map pixelToFloat) levels false
  let width ← T.domainSide image.rows levels
  let height ← T.domainSide image.cols levels
  let capacity ← T.getDomainCapacity width height
  let serialized ← dataSerialize bytes
  let encoded ← T.encode L serialized capacity
  let written ← T.write ⟨width, height, coefficients.get⟩ encoded depth
  let restored ← T.dwt2d { coefficients with get := written.get } levels true
  return restored.map floatToPixel

/-- `extract`, embedding/src/lib.rs:57-82. -/
def Target.extract (T : Target) (L : Ldpc) (image : Mat UInt8) (depth : F64) (levels : Nat) : Res (List UInt8) := do
  let coefficients ← T.dwt2d (image.map pixelToFloat) levels false
  let width ← T.domainSide image.rows levels
  let height ← T.domainSide image.cols levels
  let extracted ← T.read ⟨width, height, coefficients.get⟩ depth
  let capacity ← T.getDomainCapacity width height
  let decoded ← T.decode L extracted capacity
  dataDeserialize decoded

/-- The three bits of one feature, three-bit-quantization/src/lib.rs:53-64. -/
def Target.featureBits (T : Target) (step feature : F64) (q : Int) : Res (List Bool) := do
  let r ← T.signed 64 (q - 1)
  let (bit0, bit1) := twoBitsFromInteger (modFour r)
  let b := FloatOps.mul step (FloatOps.add (FloatOps.ofInt q) (FloatOps.lit (1 / 2)))
  return [bit0, bit1, FloatOps.ge feature b]

/-- `three_bit_quantization`, three-bit-quantization/src/lib.rs:46-77. -/
def Target.threeBitQuantization (T : Target) (features : List F64) (step : F64) : Res (List Int × List Bool) := do
  let quantized := quantize features step
  let bits ← (features.zip quantized).mapM fun (f, q) => T.featureBits step f q
  return (quantized, bits.flatten)

/-- `three_bit_dequantization`, three-bit-quantization/src/lib.rs:101-171. -/
def Target.threeBitDequantization (T : Target) (noised : List F64) (given : List Bool) (step : F64) : Res (List Int) := do
  let (_, calculated) ← T.threeBitQuantization noised step
  let restored ← restoreLoop step (chunks 3 given) (chunks 3 calculated) noised
  return quantize restored step

/-- `get_order_by_features_amount`, zernike/src/lib.rs:31-33. -/
def Target.order (T : Target) (featuresAmount : Nat) : Res Nat := do
  let a ← T.usize ((featuresAmount : Int) - 1)
  let b ← T.usize (2 * (a : Int))
  T.usize (1 + (b : Int))

/-- `(start_index..=order).step_by(2).collect()`, zernike/src/lib.rs:16-20: a vector of `usize` of at most `isize::MAX` bytes. -/
def Target.momentIndices (T : Target) (order : Nat) : Res (List Nat) :=
  let start := if order % 2 = 1 then 1 else 0
  if 2 ^ (T.bits - 1) ≤ (order + 2 - start) / 2 * (T.bits / 8) then .error .capacityOverflow else .ok (Sia.momentIndices order)

/-- `calculate_features(_, FeaturesType::MomentsZernike, features_amount)` for a given library of moments: as `channelFeatures`, with
`dimension * dimension` of `get_zernike_matrix` (zernike/src/calc.rs:71-83), whose `from_shape_vec` refuses a length that is not that
product. image-features/src/lib.rs:9-27; zernike/src/lib.rs:14-27. -/
def Target.channelFeatures (T : Target) (D : Deps F64) (image : Mat UInt8) (featuresAmount : Nat) : Res (List F64) := do
  let order ← T.order featuresAmount
  let indices ← T.momentIndices order
  indices.mapM fun index => do
    let entries ← T.usize ((image.rows : Int) * image.rows)
    if entries ≠ image.rows * image.rows then throw .shapeMismatch
    if entries < image.rows * image.cols then throw .unwrapNone
    return D.momentAbs order index image

/-- Features of a channel, watermarking/src/process.rs:31-38 and 83-91. -/
def Target.equalizedFeatures (T : Target) (D : Deps F64) (channel : GrayImage) (featuresAmount : Nat) : Res (List F64) := do
  let equalized ← fromShapeVec channel.width channel.height (D.equalize channel)
  T.channelFeatures D equalized featuresAmount

/-- `watermark_channel`, watermarking/src/process.rs:17-68. -/
def Target.watermarkChannel (T : Target) (D : Deps F64) (channel : GrayImage) (embeddingDepth step : F64)
    (featuresAmount dwtLevels : Nat) : Res GrayImage := do
  let pixels ← fromShapeVec channel.width channel.height channel.raw
  let features ← T.equalizedFeatures D channel featuresAmount
  let (quantized, perturbation) ← T.threeBitQuantization features step
  let signature ← sign D.ed (vecI64ToBytes quantized) privateKey publicKey
  let watermark : Watermark := { perturbationVector := perturbation, signature := signature, text := watermarkText }
  let data ← watermark.serialize
  let marked ← T.embed D.ldpc pixels data embeddingDepth dwtLevels
  GrayImage.fromRaw channel.width channel.height marked.toList

/-- `authenticate_channel`, watermarking/src/process.rs:70-115. -/
def Target.authenticateChannel (T : Target) (D : Deps F64) (channel : GrayImage) (embeddingDepth step : F64)
    (featuresAmount dwtLevels : Nat) : Res Bool := do
  let pixels ← fromShapeVec channel.width channel.height channel.raw
  let features ← T.equalizedFeatures D channel featuresAmount
  let extracted ← T.extract D.ldpc pixels embeddingDepth dwtLevels
  let watermark ← deserializeWatermark extracted
  let quantized ← T.threeBitDequantization features watermark.perturbationVector step
  verify D.ed (vecI64ToBytes quantized) watermark.signature publicKey

/-- `watermark`, watermarking/src/lib.rs:13-112. -/
def Target.watermark (T : Target) (D : Deps F64) (image : DynamicImage) (embeddingDepth step : F64) (featuresAmount : Nat) :
    Res DynamicImage := do
  let color := image.color
  let red ← T.watermarkChannel D (image.plane Rgba.r) embeddingDepth step featuresAmount dwtLevels
  if color.hasColor then
    let green ← T.watermarkChannel D (image.plane Rgba.g) embeddingDepth step featuresAmount dwtLevels
    let blue ← T.watermarkChannel D (image.plane Rgba.b) embeddingDepth step featuresAmount dwtLevels
    return assemble color image.width image.height (outPixel color red green blue (image.plane Rgba.a))
  else
    return assemble color image.width image.height (outPixel color red red red (image.plane Rgba.a))

/-- `generate_unit`, utils/src/pseudo_random.rs:20-24: the number and the seed afterwards. -/
def Target.generateUnit (T : Target) (seed : Nat) : Res (F64 × Nat) := do
  let seed ← T.usize ((seed : Int) + 1)
  let a : F64 := F64.mul (FloatOps.ofInt (seed : ℤ)) (FloatOps.lit 15485863)
  return (F64.div (F64.rem (F64.mul (F64.mul a a) a) (FloatOps.lit 2038074743)) (FloatOps.lit 2038074743), seed)

end Sia
