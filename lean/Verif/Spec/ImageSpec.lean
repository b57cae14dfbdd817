import Verif.Model.DynamicImage

/-! Specification vocabulary for whole images: what it means for a grey image to be one channel of a colour image. -/
namespace Sia

/-- `c` is the channel `s` of `image`: same size, one byte per pixel in row-major order, each the sample `s` of the pixel. -/
structure IsChannel (image : DynamicImage) (s : Rgba → UInt8) (c : GrayImage) : Prop where
  width : c.width = image.width
  height : c.height = image.height
  size : c.raw.length = image.width * image.height
  bytes : ∀ x < image.width, ∀ y < image.height, c.raw[y * image.width + x]? = some (s (image.pixel x y))

end Sia
