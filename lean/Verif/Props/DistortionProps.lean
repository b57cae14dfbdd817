import Verif.Props.ImageProps

/-! C54: how much watermarking changes an image. -/
namespace Sia
open LawfulFloat

theorem watermarkChannel_embed {F : Type} [FloatOps F] (D : Deps F) (c out : GrayImage) (n levels a : Nat) (depth step : F)
    (hc : c.IsSquare n) (h : watermarkChannel D c depth step a levels = .ok out) :
    ∃ record m, embed D.ldpc c.pixels record depth levels = .ok m ∧ out.IsSquare n ∧
      ∀ i < n, ∀ j < n, out.pixels.get i j = m.get i j := by
  obtain ⟨_, _, _, _, _, fs, q, p', record, m, hf, hq, hser, hlen, he, hraw⟩ :=
    watermarkChannel_ok_only D c out depth step a levels h
  obtain ⟨hm1, hm2⟩ := embed_shape D.ldpc c.pixels m record depth levels he
  have hmsq : m.IsSquare n := ⟨by rw [hm1]; exact hc.1, by rw [hm2]; exact hc.2.1⟩
  obtain ⟨r1, r2, r3⟩ := fromRaw_toList m n hmsq
  have hout' : out = ⟨n, n, m.toList⟩ := by
    rw [hc.1, hc.2.1, r1] at hraw
    exact (Except.ok.inj hraw).symm
  exact ⟨record, m, he, by rw [hout']; exact r2, by rw [hout']; exact r3⟩

/-- C54 (exact arithmetic): watermarking a channel changes no pixel by more than `3/4 * depth / 2^levels + 1/2`. -/
theorem watermarkChannel_distortion (D : Deps ℝ) (c out : GrayImage) (n levels a : Nat) (depth step : ℝ) (hn : 0 < n)
    (hc : c.IsSquare n) (hd : 0 < depth) (h : watermarkChannel D c depth step a levels = .ok out) :
    out.IsSquare n ∧ ∀ i < n, ∀ j < n, |((out.pixels.get i j).toNat : ℝ) - ((c.pixels.get i j).toNat : ℝ)| ≤
      3 / 4 * depth / 2 ^ levels + 1 / 2 := by
  obtain ⟨record, m, he, h1, h2⟩ := watermarkChannel_embed D c out n levels a depth step hc h
  refine ⟨h1, fun i hi j hj => ?_⟩
  rw [h2 i hi j hj]
  exact (embed_distortion D.ldpc n levels c.pixels m record depth hn ⟨hc.1, hc.2.1⟩ hd he).2 i hi j hj

/-- C54 (floating point). -/
theorem watermarkChannel_distortion_float {F : Type} [FloatOps F] [LawfulFloat F] (D : Deps F) (c out : GrayImage)
    (n levels a : Nat) (depth step : F) (hn : 0 < n)
    (hc : c.IsSquare n) (hd : GoodDepth depth) (hd1 : 1 ≤ val depth) (h : watermarkChannel D c depth step a levels = .ok out) :
    out.IsSquare n ∧ ∀ i < n, ∀ j < n, |((out.pixels.get i j).toNat : ℝ) - ((c.pixels.get i j).toNat : ℝ)| ≤
      (3 / 4 + embedSlack F levels) * val depth / 2 ^ levels + 1 / 2 := by
  obtain ⟨record, m, he, h1, h2⟩ := watermarkChannel_embed D c out n levels a depth step hc h
  refine ⟨h1, fun i hi j hj => ?_⟩
  rw [h2 i hi j hj]
  exact (embed_distortion_float D.ldpc n levels c.pixels m record depth hn ⟨hc.1, hc.2.1⟩ hd hd1 he).2 i hi j hj

theorem sample_pixels (c : GrayImage) (n x y : Nat) (hc : c.IsSquare n) : c.sample x y = c.pixels.get y x := by
  obtain ⟨h1, h2, _⟩ := hc
  unfold GrayImage.sample GrayImage.pixels
  dsimp only
  rw [h1, h2]

theorem plane_isSquare (image : DynamicImage) (n : Nat) (hw : image.width = n) (hh : image.height = n) (s : Rgba → UInt8) :
    (image.plane s).IsSquare n := ⟨hw, hh, by unfold DynamicImage.plane; rw [List.length_map, List.length_range, hw, hh]⟩

theorem watermarkChannel_isSquare {F : Type} [FloatOps F] (D : Deps F) (c out : GrayImage) (n : Nat) (depth step : F)
    (a levels : Nat) (hc : c.IsSquare n) (h : watermarkChannel D c depth step a levels = .ok out) : out.IsSquare n := by
  obtain ⟨a1, a2, a3⟩ := watermarkChannel_out D _ out depth step a levels h
  exact ⟨a1.trans hc.1, a2.trans hc.2.1, by rw [a3, a1, a2, hc.1, hc.2.1]⟩

/-- C54 for whole square images (exact arithmetic, three levels): every red, green and blue sample of a watermarked image with
colour differs from the source's sample by at most `3/32 * depth + 1/2`, and alpha is untouched; for grey images this holds for
the grey sample. With the default depth 100 this is at most 9 grey levels. -/
theorem watermark_distortion (D : Deps ℝ) (image out : DynamicImage) (n a : Nat) (depth step : ℝ) (hn : 0 < n)
    (hw : image.width = n) (hh : image.height = n) (hd : 0 < depth) (h : watermark D image depth step a = .ok out) :
    ∀ x < n, ∀ y < n,
      |(((out.pixel x y).r.toNat : ℕ) : ℝ) - ((image.pixel x y).r.toNat : ℝ)| ≤ 3 / 32 * depth + 1 / 2 ∧
      (image.color.hasColor = true →
        |(((out.pixel x y).g.toNat : ℕ) : ℝ) - ((image.pixel x y).g.toNat : ℝ)| ≤ 3 / 32 * depth + 1 / 2 ∧
        |(((out.pixel x y).b.toNat : ℕ) : ℝ) - ((image.pixel x y).b.toNat : ℝ)| ≤ 3 / 32 * depth + 1 / 2) ∧
      (image.color.hasAlpha = true → (out.pixel x y).a = (image.pixel x y).a) := by
  obtain ⟨_, _, _, hal, _⟩ := watermark_keeps_shape_and_alpha D image out depth step a h
  obtain ⟨r, e1, e2, _, e4⟩ := watermark_channels D image out depth step a h
  have key : ∀ (s : Rgba → UInt8) (c : GrayImage), watermarkChannel D (image.plane s) depth step a 3 = .ok c →
      ∀ x < n, ∀ y < n, |(((c.sample x y).toNat : ℕ) : ℝ) - ((s (image.pixel x y)).toNat : ℝ)| ≤ 3 / 32 * depth + 1 / 2 := by
    intro s c hcs x hx y hy
    have hsq := plane_isSquare image n hw hh s
    obtain ⟨g1, g2⟩ := watermarkChannel_distortion D (image.plane s) c n 3 a depth step hn hsq hd hcs
    have := g2 y hy x hx
    rw [← sample_pixels c n x y g1, ← sample_pixels _ n x y hsq, plane_sample image s x y (by omega) (by omega)] at this
    refine this.trans (le_of_eq ?_)
    ring
  intro x hx y hy
  refine ⟨?_, ?_, ?_⟩
  · rw [e2]; exact key Rgba.r r e1 x hx y hy
  · intro hcol
    obtain ⟨g, b, e5, e6, e7⟩ := e4 hcol
    rw [(e7 x y).1, (e7 x y).2]
    exact ⟨key Rgba.g g e5 x hx y hy, key Rgba.b b e6 x hx y hy⟩
  · intro ha
    exact hal ha x (by omega) y (by omega)

/-- C54 for whole square images (floating point, three levels): the same bound with the rounding slack, which for doubles is
below `2^-26`. -/
theorem watermark_distortion_float {F : Type} [FloatOps F] [LawfulFloat F] (D : Deps F) (image out : DynamicImage) (n a : Nat)
    (depth step : F) (hn : 0 < n) (hw : image.width = n) (hh : image.height = n) (hd : GoodDepth depth) (hd1 : 1 ≤ val depth)
    (h : watermark D image depth step a = .ok out) :
    ∀ x < n, ∀ y < n,
      |(((out.pixel x y).r.toNat : ℕ) : ℝ) - ((image.pixel x y).r.toNat : ℝ)| ≤ (3 / 32 + 1 / 2 ^ 26) * val depth + 1 / 2 ∧
      (image.color.hasColor = true →
        |(((out.pixel x y).g.toNat : ℕ) : ℝ) - ((image.pixel x y).g.toNat : ℝ)| ≤ (3 / 32 + 1 / 2 ^ 26) * val depth + 1 / 2 ∧
        |(((out.pixel x y).b.toNat : ℕ) : ℝ) - ((image.pixel x y).b.toNat : ℝ)| ≤ (3 / 32 + 1 / 2 ^ 26) * val depth + 1 / 2) ∧
      (image.color.hasAlpha = true → (out.pixel x y).a = (image.pixel x y).a) := by
  obtain ⟨_, _, _, hal, _⟩ := watermark_keeps_shape_and_alpha D image out depth step a h
  obtain ⟨r, e1, e2, _, e4⟩ := watermark_channels D image out depth step a h
  have hslack : embedSlack F 3 ≤ 1 / 2 ^ 26 := by
    have h1 := u_le (F := F)
    unfold embedSlack
    have : u F * (2 ^ 15 * ((3 : ℕ) : ℝ) * (81 / 8) ^ 3) ≤ 1 / 2 ^ 53 * (2 ^ 15 * ((3 : ℕ) : ℝ) * (81 / 8) ^ 3) :=
      mul_le_mul_of_nonneg_right h1 (by positivity)
    refine this.trans ?_
    norm_num
  have hs0 := embedSlack_nonneg (F := F) 3
  have key : ∀ (s : Rgba → UInt8) (c : GrayImage), watermarkChannel D (image.plane s) depth step a 3 = .ok c →
      ∀ x < n, ∀ y < n, |(((c.sample x y).toNat : ℕ) : ℝ) - ((s (image.pixel x y)).toNat : ℝ)| ≤
        (3 / 32 + 1 / 2 ^ 26) * val depth + 1 / 2 := by
    intro s c hcs x hx y hy
    have hsq := plane_isSquare image n hw hh s
    obtain ⟨g1, g2⟩ := watermarkChannel_distortion_float D (image.plane s) c n 3 a depth step hn hsq hd hd1 hcs
    have := g2 y hy x hx
    rw [← sample_pixels c n x y g1, ← sample_pixels _ n x y hsq, plane_sample image s x y (by omega) (by omega)] at this
    refine this.trans ?_
    have : embedSlack F 3 * val depth ≤ 1 / 2 ^ 26 * val depth := mul_le_mul_of_nonneg_right hslack (by linarith)
    norm_num at this ⊢
    nlinarith [mul_nonneg hs0 (by linarith : (0:ℝ) ≤ val depth)]
  intro x hx y hy
  refine ⟨?_, ?_, ?_⟩
  · rw [e2]; exact key Rgba.r r e1 x hx y hy
  · intro hcol
    obtain ⟨g, b, e5, e6, e7⟩ := e4 hcol
    rw [(e7 x y).1, (e7 x y).2]
    exact ⟨key Rgba.g g e5 x hx y hy, key Rgba.b b e6 x hx y hy⟩
  · intro ha
    exact hal ha x (by omega) y (by omega)

end Sia
