import Verif.Model.Watermarking

/-! Model of `lib/sia/rust/watermarking/src/lib.rs` and of the parts of the `image` crate (0.24) it uses. -/
namespace Sia

/-- `image::ColorType`. watermarking/src/lib.rs:19. -/
inductive ColorType where
  | L8 | La8 | Rgb8 | Rgba8 | L16 | La16 | Rgb16 | Rgba16 | Rgb32F | Rgba32F
  deriving DecidableEq, Repr

/-- `ColorType::has_color` (image crate). watermarking/src/lib.rs:42, 58, 84, 101-105. -/
def ColorType.hasColor : ColorType → Bool
  | .L8 | .La8 | .L16 | .La16 => false
  | .Rgb8 | .Rgba8 | .Rgb16 | .Rgba16 | .Rgb32F | .Rgba32F => true

/-- `ColorType::has_alpha` (image crate). watermarking/src/lib.rs:46, 92, 101-103. -/
def ColorType.hasAlpha : ColorType → Bool
  | .La8 | .Rgba8 | .La16 | .Rgba16 | .Rgba32F => true
  | .L8 | .Rgb8 | .L16 | .Rgb16 | .Rgb32F => false

/-- `image::Rgba<u8>`. watermarking/src/lib.rs:36. -/
structure Rgba where
  r : UInt8
  g : UInt8
  b : UInt8
  a : UInt8
  deriving DecidableEq, Repr

/-- `image::DynamicImage` as seen through its interface: colour type, dimensions and `get_pixel(x, y)`, which converts every
pixel to 8-bit RGBA (the conversion of 16-bit and float samples belongs to the image crate and is not modelled).
watermarking/src/lib.rs:13-36. -/
structure DynamicImage where
  color : ColorType
  width : Nat
  height : Nat
  pixel : Nat → Nat → Rgba

/-- `ImageBuffer::new` followed by `put_pixel` for every pixel, watermarking/src/lib.rs:22-48: one sample of every pixel. -/
def DynamicImage.plane (image : DynamicImage) (sample : Rgba → UInt8) : GrayImage :=
  ⟨image.width, image.height,
    (List.range (image.width * image.height)).map fun i => sample (image.pixel (i % image.width) (i / image.width))⟩

/-- `GrayImage::get_pixel(x, y)[0]` (image crate); only called inside the image. watermarking/src/lib.rs:79-93. -/
def GrayImage.sample (c : GrayImage) (x y : Nat) : UInt8 := c.raw.getD (y * c.width + x) 0

/-- `Pixel::to_luma` of an RGB pixel (image crate, `rgb_to_luma`): integer arithmetic, truncating division.
watermarking/src/lib.rs:102, 106. -/
def luma (r g b : UInt8) : UInt8 := UInt8.ofNat ((2126 * r.toNat + 7152 * g.toNat + 722 * b.toNat) / 10000)

/-- `DWT_LEVELS`, watermarking/src/lib.rs:11. -/
def dwtLevels : Nat := 3

section
variable {F : Type} [FloatOps F]

/-- The pixel of `out`, watermarking/src/lib.rs:78-99. -/
def outPixel (color : ColorType) (red green blue alpha : GrayImage) (x y : Nat) : Rgba :=
  { r := red.sample x y
    g := if color.hasColor then green.sample x y else red.sample x y
    b := if color.hasColor then blue.sample x y else red.sample x y
    a := if color.hasAlpha then alpha.sample x y else red.sample x y }

/-- The conversion of `out` to the result, watermarking/src/lib.rs:101-111: `grayscale_alpha` and `grayscale` take the luma of
the pixel, `copy_from` into an RGB image drops the alpha sample. `get_pixel` of the result then repeats the luma and
supplies alpha 255 where there is none. -/
def assemble (color : ColorType) (width height : Nat) (out : Nat → Nat → Rgba) : DynamicImage :=
  let l (x y : Nat) : UInt8 := luma (out x y).r (out x y).g (out x y).b
  if !color.hasColor && color.hasAlpha then
    ⟨.La8, width, height, fun x y => ⟨l x y, l x y, l x y, (out x y).a⟩⟩
  else if color.hasColor && color.hasAlpha then ⟨.Rgba8, width, height, out⟩
  else if !color.hasColor then ⟨.L8, width, height, fun x y => ⟨l x y, l x y, l x y, 255⟩⟩
  else ⟨.Rgb8, width, height, fun x y => { out x y with a := 255 }⟩

/-- `watermark`, watermarking/src/lib.rs:13-112. -/
def watermark (D : Deps F) (image : DynamicImage) (embeddingDepth step : F) (featuresAmount : Nat) : Res DynamicImage := do
  let color := image.color
  let red ← watermarkChannel D (image.plane Rgba.r) embeddingDepth step featuresAmount dwtLevels
  if color.hasColor then
    let green ← watermarkChannel D (image.plane Rgba.g) embeddingDepth step featuresAmount dwtLevels
    let blue ← watermarkChannel D (image.plane Rgba.b) embeddingDepth step featuresAmount dwtLevels
    return assemble color image.width image.height (outPixel color red green blue (image.plane Rgba.a))
  else
    return assemble color image.width image.height (outPixel color red red red (image.plane Rgba.a))

end
end Sia
