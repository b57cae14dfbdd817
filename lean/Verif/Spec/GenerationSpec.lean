import Verif.Spec.CliSpec
import Verif.Spec.DriftSpec
import Verif.Spec.PipelineSpec
import Mathlib.Algebra.Order.Group.Unbundled.Abs

/-! Specification vocabulary for running the tool on its own output (C91). -/
namespace Sia

/-- `a` shows what `b` shows: the same size and the same red, green and blue samples. -/
def LooksLike (a b : DynamicImage) : Prop :=
  a.width = b.width ∧ a.height = b.height ∧
    ∀ s ∈ [Rgba.r, Rgba.g, Rgba.b], ∀ x < b.width, ∀ y < b.height, s (a.pixel x y) = s (b.pixel x y)

/-- The block of 8 x 8 samples at `(x, y)` has room for a mark of depth 100, and its sum allows no tie. -/
def OrdinaryBlock (image : DynamicImage) (s : Rgba → UInt8) (x y : Nat) : Prop :=
  (∀ x' < image.width, ∀ y' < image.height, SameBlock x y x' y' → 10 ≤ (s (image.pixel x' y')).toNat ∧ (s (image.pixel x' y')).toNat ≤ 245) ∧
    sampleSum image s x y % 16 ≠ 8

section
variable {F : Type} [FloatOps F]

/-- The codecs of the paths in `P` give back what was written, and pictures without colour have equal red, green and blue samples. -/
structure LosslessOn (W : World F) (P : PathStr → Prop) : Prop where
  reads : ∀ path format picture contents final, P path → W.formatOf path = some format →
    W.encode format picture = (contents ++ [final], true) → ∃ got, W.decode path final = some got ∧ LooksLike got picture
  grey : ∀ path content image, W.decode path content = some image → image.color.hasColor = false →
    ∀ x < image.width, ∀ y < image.height, (image.pixel x y).g = (image.pixel x y).r ∧ (image.pixel x y).b = (image.pixel x y).r

/-- The codecs of the paths in `P` give back a picture of the size of the one that was written, the mean of no whole block of 8 x 8 samples
of a colour being changed by more than 2.5 levels, and pictures without colour have equal red, green and blue samples. -/
structure LossyOn (W : World F) (P : PathStr → Prop) : Prop where
  reads : ∀ path format picture contents final, P path → W.formatOf path = some format →
    W.encode format picture = (contents ++ [final], true) → ∃ got, W.decode path final = some got ∧
      got.width = picture.width ∧ got.height = picture.height ∧
      ∀ s ∈ [Rgba.r, Rgba.g, Rgba.b], ∀ x y, x / 8 * 8 + 8 ≤ picture.width → y / 8 * 8 + 8 ≤ picture.height →
        |(sampleSum got s x y : ℤ) - sampleSum picture s x y| ≤ 160
  grey : ∀ path content image, W.decode path content = some image → image.color.hasColor = false →
    ∀ x < image.width, ∀ y < image.height, (image.pixel x y).g = (image.pixel x y).r ∧ (image.pixel x y).b = (image.pixel x y).r

/-- The picture in the file `a` has room for a mark of depth 100 in the block at `(x, y)`. -/
def RoomIn (W : World F) (s : Rgba → UInt8) (x y : Nat) (a : PathStr × List UInt8) : Prop :=
  ∀ image, W.decode a.1 a.2 = some image → ∀ x' < image.width, ∀ y' < image.height, SameBlock x y x' y' →
    10 ≤ (s (image.pixel x' y')).toNat ∧ (s (image.pixel x' y')).toNat ≤ 245

/-- The file `y` (path and content) is what a run of the tool writes for the input file `x`. -/
def WrittenFor (W : World F) (x y : PathStr × List UInt8) : Prop :=
  ∃ suffix folder stem ext, NamedAs x.1 stem ext ∧ y.1 = OutName stem ext suffix folder ∧
    MarksTo W suffix folder x.1 x.2 (W.resolve y.1) y.2

end

/-- In the ordinary blocks of `image`, the samples `s` of `out` are those of `image` with one record embedded, the one made for
`before` with the settings of the tool. -/
def CarriesOnly (D : Deps F64) (image before out : DynamicImage) (s : Rgba → UInt8) : Prop :=
  ∃ fs q p record direct, equalizedFeatures D (before.plane s) 11 = .ok fs ∧
    threeBitQuantization fs (FloatOps.ofInt 1) = .ok (q, p) ∧
    (Watermark.mk p (D.ed.sign (builtinSecret ++ builtinPublic) (vecI64ToBytes q)) watermarkText).serialize = .ok record ∧
    embed D.ldpc (image.plane s).pixels record (FloatOps.ofInt 100 : F64) 3 = .ok direct ∧
    ∀ x < image.width, ∀ y < image.height, OrdinaryBlock image s x y → s (out.pixel x y) = direct.get y x

end Sia
