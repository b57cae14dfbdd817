import Verif.Props.ImageProps
import Verif.Spec.ImageSpec

/-! C36, C37, C38 for whole images, stated with the channels of an image (`IsChannel`). -/
namespace Sia

/-- Every channel of every image exists and is unique. -/
theorem isChannel_iff (image : DynamicImage) (s : Rgba → UInt8) (c : GrayImage) : IsChannel image s c ↔ c = image.plane s := by
  have hget : ∀ x < image.width, ∀ y < image.height, (image.plane s).raw[y * image.width + x]? = some (s (image.pixel x y)) := by
    intro x hx y hy
    have hk : y * image.width + x < image.width * image.height := by
      calc y * image.width + x < y * image.width + image.width := by omega
        _ = image.width * (y + 1) := by ring
        _ ≤ image.width * image.height := Nat.mul_le_mul_left _ hy
    have e1 : (y * image.width + x) / image.width = y := by
      rw [mul_comm, Nat.mul_add_div (by omega), Nat.div_eq_of_lt hx, add_zero]
    have e2 : (y * image.width + x) % image.width = x := by
      rw [mul_comm, Nat.mul_add_mod, Nat.mod_eq_of_lt hx]
    unfold DynamicImage.plane
    dsimp only
    rw [List.getElem?_map, List.getElem?_range hk, Option.map_some, e1, e2]
  constructor
  · rintro ⟨h1, h2, h3, h4⟩
    obtain ⟨w, h, raw⟩ := c
    dsimp only at h1 h2 h3 h4
    subst h1 h2
    have : raw = (image.plane s).raw := by
      apply List.ext_getElem?
      intro i
      by_cases hi : i < image.width * image.height
      · have hw0 : 0 < image.width := by
          rcases Nat.eq_zero_or_pos image.width with h0 | h0
          · rw [h0] at hi; simp at hi
          · exact h0
        have hx := Nat.mod_lt i hw0
        have hy := Nat.div_lt_of_lt_mul hi
        have e : i / image.width * image.width + i % image.width = i := by rw [mul_comm]; exact Nat.div_add_mod i _
        have a := h4 _ hx _ hy
        have b := hget _ hx _ hy
        rw [e] at a b
        rw [a, b]
      · rw [List.getElem?_eq_none (by omega), List.getElem?_eq_none]
        simp [DynamicImage.plane]; omega
    rw [this]
    rfl
  · rintro rfl
    exact ⟨rfl, rfl, by simp [DynamicImage.plane], hget⟩

section
variable {F : Type} [FloatOps F]

/-- C37: `watermark` succeeds on an image exactly if the processed channels can be watermarked: the first (red or grey) one,
and the green and blue ones of an image with colour. -/
theorem watermark_accepts_channels (D : Deps F) (image : DynamicImage) (r g b : GrayImage) (hr : IsChannel image Rgba.r r)
    (hg : IsChannel image Rgba.g g) (hb : IsChannel image Rgba.b b) (depth step : F) (a : Nat) :
    (∃ out, watermark D image depth step a = .ok out) ↔
      (∃ c, watermarkChannel D r depth step a 3 = .ok c) ∧
      (image.color.hasColor = true → (∃ c, watermarkChannel D g depth step a 3 = .ok c) ∧
        ∃ c, watermarkChannel D b depth step a 3 = .ok c) := by
  obtain rfl := (isChannel_iff _ _ _).1 hr
  obtain rfl := (isChannel_iff _ _ _).1 hg
  obtain rfl := (isChannel_iff _ _ _).1 hb
  exact watermark_succeeds_iff D image depth step a

/-- C36, C37: the channels of the result are exactly the watermarked channels of the image, each in its place: red, green and
blue for an image with colour, the grey one for every colour of a grey image. -/
theorem watermark_result_channels (D : Deps F) (image out : DynamicImage) (r g b : GrayImage) (hr : IsChannel image Rgba.r r)
    (hg : IsChannel image Rgba.g g) (hb : IsChannel image Rgba.b b) (depth step : F) (a : Nat)
    (h : watermark D image depth step a = .ok out) :
    ∃ red, watermarkChannel D r depth step a 3 = .ok red ∧ IsChannel out Rgba.r red ∧
      (image.color.hasColor = false → IsChannel out Rgba.g red ∧ IsChannel out Rgba.b red) ∧
      (image.color.hasColor = true → ∃ green blue,
        watermarkChannel D g depth step a 3 = .ok green ∧ IsChannel out Rgba.g green ∧
        watermarkChannel D b depth step a 3 = .ok blue ∧ IsChannel out Rgba.b blue) := by
  obtain rfl := (isChannel_iff _ _ _).1 hr
  obtain rfl := (isChannel_iff _ _ _).1 hg
  obtain rfl := (isChannel_iff _ _ _).1 hb
  obtain ⟨w1, w2, _⟩ := watermark_keeps_shape_and_alpha D image out depth step a h
  obtain ⟨red, e1, e2, e3, e4⟩ := watermark_channels D image out depth step a h
  have hp : ∀ (s s' : Rgba → UInt8) (c : GrayImage), watermarkChannel D (image.plane s) depth step a 3 = .ok c →
      (∀ x y, s' (out.pixel x y) = c.sample x y) → IsChannel out s' c := by
    intro s s' c hc hs
    obtain ⟨a1, a2, a3⟩ := watermarkChannel_out D _ c depth step a 3 hc
    exact (isChannel_iff _ _ _).2 (plane_of_sample out s' c (by rw [a1, w1]; rfl) (by rw [a2, w2]; rfl) a3 hs).symm
  refine ⟨red, e1, hp _ _ _ e1 e2, fun hc => ⟨hp _ _ _ e1 fun x y => (e3 hc x y).1, hp _ _ _ e1 fun x y => (e3 hc x y).2⟩, ?_⟩
  intro hc
  obtain ⟨gr, bl, e5, e6, e7⟩ := e4 hc
  exact ⟨gr, bl, e5, hp _ _ _ e5 fun x y => (e7 x y).1, e6, hp _ _ _ e6 fun x y => (e7 x y).2⟩

/-- C38 for whole images: the colour channels of a watermarked image get the verdict that the watermarked channels get. -/
theorem watermark_channels_authenticate (D : Deps F) (image out : DynamicImage) (depth step : F) (a : Nat)
    (h : watermark D image depth step a = .ok out) (v : Bool)
    (hauth : ∀ s ∈ (if image.color.hasColor then [Rgba.r, Rgba.g, Rgba.b] else [Rgba.r]), ∀ c marked, IsChannel image s c →
      watermarkChannel D c depth step a 3 = .ok marked → authenticateChannel D marked depth step a 3 = .ok v) :
    ∀ s ∈ [Rgba.r, Rgba.g, Rgba.b], ∀ c, IsChannel out s c → authenticateChannel D c depth step a 3 = .ok v := by
  intro s hs c hc
  obtain rfl := (isChannel_iff _ _ _).1 hc
  exact watermarked_image_authenticates D image out depth step a h v
    (fun s hs c hm => hauth s hs _ c ((isChannel_iff _ _ _).2 rfl) hm) s hs

end

/-- A 2 x 1 RGB image and its green channel. -/
example : IsChannel ⟨.Rgb8, 2, 1, fun x _ => if x = 0 then ⟨1, 2, 3, 255⟩ else ⟨4, 5, 6, 255⟩⟩ Rgba.g ⟨2, 1, [2, 5]⟩ := by
  refine ⟨rfl, rfl, rfl, ?_⟩
  intro x hx y hy
  have hy : y = 0 := by simpa using hy
  subst hy
  rcases (show x = 0 ∨ x = 1 by simp at hx; omega) with rfl | rfl <;> rfl

end Sia
