import Verif.Props.RejectProps

/-! C36, C37 and the whole-image form of C38: `watermark` on images of any colour type. -/
namespace Sia
open LawfulFloat

/-- Grey samples survive the conversion to luma exactly. -/
theorem luma_grey (v : UInt8) : luma v v v = v := by
  unfold luma
  have h : (2126 * v.toNat + 7152 * v.toNat + 722 * v.toNat) / 10000 = v.toNat := by
    rw [← Nat.add_mul, ← Nat.add_mul]
    exact Nat.mul_div_cancel_left _ (by norm_num)
  rw [h]
  exact UInt8.ofNat_toNat

section
variable {F : Type} [FloatOps F]

/-- C37: `watermark` succeeds exactly if the processed channels do: the first (red or grey) channel, and the green and blue
channels of images with colour. -/
theorem watermark_succeeds_iff (D : Deps F) (image : DynamicImage) (depth step : F) (a : Nat) :
    (∃ out, watermark D image depth step a = .ok out) ↔
      (∃ c, watermarkChannel D (image.plane Rgba.r) depth step a 3 = .ok c) ∧
      (image.color.hasColor = true → (∃ c, watermarkChannel D (image.plane Rgba.g) depth step a 3 = .ok c) ∧
        ∃ c, watermarkChannel D (image.plane Rgba.b) depth step a 3 = .ok c) := by
  unfold watermark dwtLevels
  simp only [bind, Except.bind, pure, Except.pure]
  cases watermarkChannel D (image.plane Rgba.r) depth step a 3 with
  | error e => simp
  | ok r =>
    cases image.color.hasColor with
    | false => simp
    | true =>
      cases watermarkChannel D (image.plane Rgba.g) depth step a 3 with
      | error e => simp
      | ok g =>
        cases watermarkChannel D (image.plane Rgba.b) depth step a 3 with
        | error e => simp
        | ok b => simp

theorem assemble_alpha (color : ColorType) (w h : Nat) (o : Nat → Nat → Rgba) (x y : Nat) (ha : color.hasAlpha = true) :
    ((assemble color w h o).pixel x y).a = (o x y).a := by
  cases hc : color.hasColor <;> simp [assemble, ha, hc]

theorem plane_sample (image : DynamicImage) (s : Rgba → UInt8) (x y : Nat) (hx : x < image.width) (hy : y < image.height) :
    (image.plane s).sample x y = s (image.pixel x y) := by
  unfold DynamicImage.plane GrayImage.sample
  dsimp only
  have hk : y * image.width + x < image.width * image.height := by
    calc y * image.width + x < y * image.width + image.width := by omega
      _ = image.width * (y + 1) := by ring
      _ ≤ image.width * image.height := Nat.mul_le_mul_left _ hy
  rw [List.getD_eq_getElem?_getD, List.getElem?_map, List.getElem?_range hk]
  have e1 : (y * image.width + x) / image.width = y := by
    rw [mul_comm, Nat.mul_add_div (by omega), Nat.div_eq_of_lt hx, add_zero]
  have e2 : (y * image.width + x) % image.width = x := by
    rw [mul_comm, Nat.mul_add_mod, Nat.mod_eq_of_lt hx]
  simp [e1, e2]

/-- C36: same size, 8-bit colour type of the same class, alpha samples untouched (opaque where there was no alpha). -/
theorem watermark_keeps_shape_and_alpha (D : Deps F) (image out : DynamicImage) (depth step : F) (a : Nat)
    (h : watermark D image depth step a = .ok out) :
    out.width = image.width ∧ out.height = image.height ∧
      out.color = (match image.color with
        | .L8 | .L16 => .L8
        | .La8 | .La16 => .La8
        | .Rgb8 | .Rgb16 | .Rgb32F => .Rgb8
        | .Rgba8 | .Rgba16 | .Rgba32F => .Rgba8) ∧
      (image.color.hasAlpha = true → ∀ x < image.width, ∀ y < image.height, (out.pixel x y).a = (image.pixel x y).a) ∧
      (image.color.hasAlpha = false → ∀ x y, (out.pixel x y).a = 255) := by
  have key : ∃ o : Nat → Nat → Rgba, out = assemble image.color image.width image.height o ∧
      ∀ x y, (o x y).a = if image.color.hasAlpha then (image.plane Rgba.a).sample x y else (o x y).r := by
    unfold watermark at h
    simp only [bind, Except.bind, pure, Except.pure] at h
    cases hr : watermarkChannel D (image.plane Rgba.r) depth step a dwtLevels with
    | error e => rw [hr] at h; simp at h
    | ok r =>
      rw [hr] at h
      dsimp only at h
      cases hc : image.color.hasColor with
      | false =>
        rw [hc] at h
        exact ⟨_, (Except.ok.inj h).symm, fun x y => rfl⟩
      | true =>
        rw [hc] at h
        simp only [if_true] at h
        cases hg : watermarkChannel D (image.plane Rgba.g) depth step a dwtLevels with
        | error e => rw [hg] at h; simp at h
        | ok g =>
          rw [hg] at h
          dsimp only at h
          cases hb : watermarkChannel D (image.plane Rgba.b) depth step a dwtLevels with
          | error e => rw [hb] at h; simp at h
          | ok b =>
            rw [hb] at h
            exact ⟨_, (Except.ok.inj h).symm, fun x y => rfl⟩
  obtain ⟨o, rfl, ho⟩ := key
  refine ⟨?_, ?_, ?_, ?_, ?_⟩
  · unfold assemble; split_ifs <;> rfl
  · unfold assemble; split_ifs <;> rfl
  · cases hc : image.color <;> simp [assemble, ColorType.hasColor, ColorType.hasAlpha]
  · intro ha x hx y hy
    rw [assemble_alpha _ _ _ _ _ _ ha, ho, if_pos ha, plane_sample image Rgba.a x y hx hy]
  · intro ha x y
    cases hc : image.color.hasColor <;> simp [assemble, ha, hc]

/-- C36, C37: the colour samples of the result are exactly the watermarked channels: red, green and blue of images with colour,
the single channel (without any luma rounding loss) of grey images. -/
theorem watermark_channels (D : Deps F) (image out : DynamicImage) (depth step : F) (a : Nat)
    (h : watermark D image depth step a = .ok out) :
    ∃ red, watermarkChannel D (image.plane Rgba.r) depth step a 3 = .ok red ∧
      (∀ x y, (out.pixel x y).r = red.sample x y) ∧
      (image.color.hasColor = false → ∀ x y, (out.pixel x y).g = red.sample x y ∧ (out.pixel x y).b = red.sample x y) ∧
      (image.color.hasColor = true → ∃ green blue,
        watermarkChannel D (image.plane Rgba.g) depth step a 3 = .ok green ∧
        watermarkChannel D (image.plane Rgba.b) depth step a 3 = .ok blue ∧
        ∀ x y, (out.pixel x y).g = green.sample x y ∧ (out.pixel x y).b = blue.sample x y) := by
  unfold watermark dwtLevels at h
  simp only [bind, Except.bind, pure, Except.pure] at h
  cases hr : watermarkChannel D (image.plane Rgba.r) depth step a 3 with
  | error e => rw [hr] at h; simp at h
  | ok r =>
    rw [hr] at h
    dsimp only at h
    refine ⟨r, rfl, ?_⟩
    cases hc : image.color.hasColor with
    | false =>
      rw [hc] at h
      have hout := (Except.ok.inj h).symm
      have hp : ∀ x y, (out.pixel x y).r = r.sample x y ∧ (out.pixel x y).g = r.sample x y ∧ (out.pixel x y).b = r.sample x y := by
        intro x y
        rw [hout]
        cases ha : image.color.hasAlpha <;> simp [assemble, outPixel, hc, ha, luma_grey]
      exact ⟨fun x y => (hp x y).1, fun _ x y => (hp x y).2, fun h => by simp at h⟩
    | true =>
      rw [hc] at h
      simp only [if_true] at h
      cases hg : watermarkChannel D (image.plane Rgba.g) depth step a 3 with
      | error e => rw [hg] at h; simp at h
      | ok g =>
        rw [hg] at h
        dsimp only at h
        cases hb : watermarkChannel D (image.plane Rgba.b) depth step a 3 with
        | error e => rw [hb] at h; simp at h
        | ok b =>
          rw [hb] at h
          have hout := (Except.ok.inj h).symm
          have hp : ∀ x y, (out.pixel x y).r = r.sample x y ∧ (out.pixel x y).g = g.sample x y ∧ (out.pixel x y).b = b.sample x y := by
            intro x y
            rw [hout]
            cases ha : image.color.hasAlpha <;> simp [assemble, outPixel, hc, ha]
          exact ⟨fun x y => (hp x y).1, fun h => by simp at h, fun _ => ⟨g, b, rfl, rfl, fun x y => (hp x y).2⟩⟩

/-- C37: equal source channels give equal result channels: two images of equal size (and, for green and blue, with colour)
that agree on a channel agree on that channel after watermarking, whatever their other channels and their alpha are. -/
theorem watermark_channel_independent (D : Deps F) (image image' out out' : DynamicImage) (depth step : F) (a : Nat)
    (h : watermark D image depth step a = .ok out) (h' : watermark D image' depth step a = .ok out')
    (hw : image.width = image'.width) (hh : image.height = image'.height) :
    ((∀ x < image.width, ∀ y < image.height, (image.pixel x y).r = (image'.pixel x y).r) →
      ∀ x y, (out.pixel x y).r = (out'.pixel x y).r) ∧
    (image.color.hasColor = true → image'.color.hasColor = true →
      ((∀ x < image.width, ∀ y < image.height, (image.pixel x y).g = (image'.pixel x y).g) →
        ∀ x y, (out.pixel x y).g = (out'.pixel x y).g) ∧
      ((∀ x < image.width, ∀ y < image.height, (image.pixel x y).b = (image'.pixel x y).b) →
        ∀ x y, (out.pixel x y).b = (out'.pixel x y).b)) := by
  have hplane : ∀ s : Rgba → UInt8, (∀ x < image.width, ∀ y < image.height, s (image.pixel x y) = s (image'.pixel x y)) →
      image.plane s = image'.plane s := by
    intro s hs
    unfold DynamicImage.plane
    rw [← hw, ← hh]
    congr 1
    apply List.map_congr_left
    intro i hi
    have hi' := List.mem_range.mp hi
    have hw0 : 0 < image.width := by
      rcases Nat.eq_zero_or_pos image.width with h0 | h0
      · rw [h0] at hi'; simp at hi'
      · exact h0
    exact hs _ (Nat.mod_lt _ hw0) _ (Nat.div_lt_of_lt_mul hi')
  obtain ⟨r, e1, e2, _, e4⟩ := watermark_channels D image out depth step a h
  obtain ⟨r', f1, f2, _, f4⟩ := watermark_channels D image' out' depth step a h'
  refine ⟨?_, ?_⟩
  · intro hs x y
    rw [hplane Rgba.r hs, f1] at e1
    cases e1
    rw [e2, f2]
  · intro hc hc'
    obtain ⟨g, b, e5, e6, e7⟩ := e4 hc
    obtain ⟨g', b', f5, f6, f7⟩ := f4 hc'
    refine ⟨?_, ?_⟩
    · intro hs x y
      rw [hplane Rgba.g hs, f5] at e5
      cases e5
      rw [(e7 x y).1, (f7 x y).1]
    · intro hs x y
      rw [hplane Rgba.b hs, f6] at e6
      cases e6
      rw [(e7 x y).2, (f7 x y).2]

/-- Reading a plane of the result gives back the watermarked channel. -/
theorem plane_of_sample (out : DynamicImage) (s : Rgba → UInt8) (c : GrayImage) (hw : out.width = c.width)
    (hh : out.height = c.height) (hraw : c.raw.length = c.width * c.height) (hs : ∀ x y, s (out.pixel x y) = c.sample x y) :
    out.plane s = c := by
  unfold DynamicImage.plane
  rw [hw, hh]
  obtain ⟨w, h, raw⟩ := c
  dsimp only at *
  congr 1
  apply List.ext_getElem
  · simp [hraw]
  · intro i h1 h2
    rw [List.getElem_map, List.getElem_range, hs]
    unfold GrayImage.sample
    dsimp only
    have : i / w * w + i % w = i := by rw [mul_comm]; exact Nat.div_add_mod i w
    rw [this, List.getD_eq_getElem?_getD, List.getElem?_eq_getElem h2, Option.getD_some]

theorem watermarkChannel_out (D : Deps F) (c out : GrayImage) (depth step : F) (a levels : Nat)
    (h : watermarkChannel D c depth step a levels = .ok out) :
    out.width = c.width ∧ out.height = c.height ∧ out.raw.length = out.width * out.height := by
  obtain ⟨_, _, _, _, _, _, _, _, _, m, _, _, _, _, he, hraw⟩ := watermarkChannel_ok_only D c out depth step a levels h
  obtain ⟨h1, h2⟩ := embed_shape _ _ _ _ _ _ he
  unfold GrayImage.fromRaw at hraw
  split_ifs at hraw
  cases hraw
  refine ⟨rfl, rfl, ?_⟩
  rw [mat_toList_length, h1, h2]
  rfl

/-- C38 for whole images: every processed colour plane of a watermarked image authenticates as soon as the watermarked channel
it was made from does. -/
theorem watermarked_image_authenticates (D : Deps F) (image out : DynamicImage) (depth step : F) (a : Nat)
    (h : watermark D image depth step a = .ok out) (b : Bool)
    (hauth : ∀ s ∈ (if image.color.hasColor then [Rgba.r, Rgba.g, Rgba.b] else [Rgba.r]), ∀ c,
      watermarkChannel D (image.plane s) depth step a 3 = .ok c → authenticateChannel D c depth step a 3 = .ok b) :
    ∀ s ∈ [Rgba.r, Rgba.g, Rgba.b], authenticateChannel D (out.plane s) depth step a 3 = .ok b := by
  obtain ⟨w1, w2, _⟩ := watermark_keeps_shape_and_alpha D image out depth step a h
  obtain ⟨r, e1, e2, e3, e4⟩ := watermark_channels D image out depth step a h
  have hp : ∀ (s s' : Rgba → UInt8) (c : GrayImage), watermarkChannel D (image.plane s) depth step a 3 = .ok c →
      (∀ x y, s' (out.pixel x y) = c.sample x y) → out.plane s' = c := by
    intro s s' c hc hs
    obtain ⟨a1, a2, a3⟩ := watermarkChannel_out D _ c depth step a 3 hc
    exact plane_of_sample out s' c (by rw [a1, w1]; rfl) (by rw [a2, w2]; rfl) a3 hs
  cases hc : image.color.hasColor with
  | false =>
    rw [hc] at hauth
    have hr := hauth Rgba.r (by simp) r e1
    intro s hs
    have hps : out.plane s = r := by
      simp only [List.mem_cons, List.not_mem_nil, or_false] at hs
      rcases hs with rfl | rfl | rfl
      · exact hp Rgba.r Rgba.r r e1 e2
      · exact hp Rgba.r Rgba.g r e1 (fun x y => (e3 hc x y).1)
      · exact hp Rgba.r Rgba.b r e1 (fun x y => (e3 hc x y).2)
    rw [hps, hr]
  | true =>
    rw [hc] at hauth
    obtain ⟨g, bl, e5, e6, e7⟩ := e4 hc
    intro s hs
    simp only [List.mem_cons, List.not_mem_nil, or_false] at hs
    rcases hs with rfl | rfl | rfl
    · rw [hp Rgba.r Rgba.r r e1 e2]; exact hauth Rgba.r (by simp) r e1
    · rw [hp Rgba.g Rgba.g g e5 (fun x y => (e7 x y).1)]; exact hauth Rgba.g (by simp) g e5
    · rw [hp Rgba.b Rgba.b bl e6 (fun x y => (e7 x y).2)]; exact hauth Rgba.b (by simp) bl e6

end
end Sia
