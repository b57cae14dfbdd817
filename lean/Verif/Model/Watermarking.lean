import Verif.Model.Embedding
import Verif.Model.Zernike
import Verif.Model.Signature
import Verif.Model.WatermarkRecord
import Verif.Model.Bytes

/-! Model of `lib/sia/rust/watermarking/src/process.rs`. -/
namespace Sia

/-- `image::GrayImage`: dimensions and the raw container (row by row, at least `width * height` bytes).
watermarking/src/process.rs:17-26, 67. -/
structure GrayImage where
  width : Nat
  height : Nat
  raw : List UInt8
  deriving DecidableEq

/-- `GrayImage::from_raw(width, height, raw).unwrap()` (image crate): refuses a container that is too small.
watermarking/src/process.rs:67. -/
def GrayImage.fromRaw (width height : Nat) (raw : List UInt8) : Res GrayImage :=
  if width * height ≤ raw.length then .ok ⟨width, height, raw⟩ else .error .shapeMismatch

/-- `Array2::from_shape_vec([rows, cols], v).unwrap()` (ndarray): the vector must have exactly `rows * cols` elements and is
read row by row. watermarking/src/process.rs:28, 33, 80, 85. -/
def fromShapeVec {α : Type} [Inhabited α] (rows cols : Nat) (v : List α) : Res (Mat α) :=
  if v.length = rows * cols then .ok ⟨rows, cols, fun i j => v.getD (i * cols + j) default⟩ else .error .shapeMismatch

/-- The libraries the pipeline uses: LDPC, Ed25519, `imageproc::contrast::equalize_histogram` (on the raw container, of which
only the length is fixed) and the modulus of the Zernike moment of given order and index in the float type `F`.
watermarking/src/process.rs:17-115. -/
structure Deps (F : Type) where
  ldpc : Ldpc
  ed : Ed25519
  equalize : GrayImage → List UInt8
  momentAbs : Nat → Nat → Mat UInt8 → F
  equalize_length : ∀ c, (equalize c).length = c.raw.length

/-- `PRIVATE_KEY`, process.rs:14 (UTF-8 bytes). -/
def privateKey : List UInt8 := utf8Bytes "e1ec991518bead7d94b60bf64469b98d866315b3676d4fa5b4e7c36dc4951d60"

/-- `PUBLIC_KEY`, process.rs:15 (UTF-8 bytes). -/
def publicKey : List UInt8 := utf8Bytes "a7fd235002f60fad1a7077d74cfd62dd8922963ebc713c385ad37596fba5a7d6"

/-- The text put into every watermark, process.rs:57. -/
def watermarkText : String := "Hello world!"

section
variable {F : Type} [FloatOps F]

/-- `calculate_features(_, FeaturesType::MomentsZernike, features_amount)` (image-features/src/lib.rs:9-27, zernike/src/lib.rs:14-27)
for a given library of moments: the list of moduli, or a panic of `zernike_matrix_vector.get(i).unwrap()`
(zernike/src/calc.rs:22) when the image has more pixels than the square of its first dimension. For exact arithmetic it is
proved equal to `calculateFeatures` in Verif/Props/PipelineProps.lean. -/
def channelFeatures (D : Deps F) (image : Mat UInt8) (featuresAmount : Nat) : Res (List F) := do
  let order ← orderByFeaturesAmount featuresAmount
  (momentIndices order).mapM fun index =>
    if image.rows * image.rows < image.rows * image.cols then .error .unwrapNone
    else .ok (D.momentAbs order index image)

/-- Features of a channel, process.rs:31-38 and 83-91: histogram equalisation, then `calculate_features`; the array gets
the shape `[width, height]`. -/
def equalizedFeatures (D : Deps F) (channel : GrayImage) (featuresAmount : Nat) : Res (List F) := do
  let equalized ← fromShapeVec channel.width channel.height (D.equalize channel)
  channelFeatures D equalized featuresAmount

/-- `watermark_channel`, process.rs:17-68. -/
def watermarkChannel (D : Deps F) (channel : GrayImage) (embeddingDepth step : F) (featuresAmount dwtLevels : Nat) :
    Res GrayImage := do
  let pixels ← fromShapeVec channel.width channel.height channel.raw
  let features ← equalizedFeatures D channel featuresAmount
  let (quantized, perturbation) ← threeBitQuantization features step
  let signature ← sign D.ed (vecI64ToBytes quantized) privateKey publicKey
  let watermark : Watermark := { perturbationVector := perturbation, signature := signature, text := watermarkText }
  let data ← watermark.serialize
  let marked ← embed D.ldpc pixels data embeddingDepth dwtLevels
  GrayImage.fromRaw channel.width channel.height marked.toList

/-- `authenticate_channel`, process.rs:70-115. -/
def authenticateChannel (D : Deps F) (channel : GrayImage) (embeddingDepth step : F) (featuresAmount dwtLevels : Nat) :
    Res Bool := do
  let pixels ← fromShapeVec channel.width channel.height channel.raw
  let features ← equalizedFeatures D channel featuresAmount
  let extracted ← extract D.ldpc pixels embeddingDepth dwtLevels
  let watermark ← deserializeWatermark extracted
  let quantized ← threeBitDequantization features watermark.perturbationVector step
  verify D.ed (vecI64ToBytes quantized) watermark.signature publicKey

end
end Sia
