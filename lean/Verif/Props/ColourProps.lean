import Verif.Props.ChannelProps
import Verif.Props.CliAuthExamples
import Verif.Props.RejectProps

/-! C88: the colours of a picture do not mix. -/
namespace Sia

section
variable {F : Type} [FloatOps F]

/-- The pixels of a picture without colour have equal red, green and blue samples, as `get_pixel` returns them. -/
def GreyPixels (image : DynamicImage) : Prop :=
  image.color.hasColor = false → ∀ x < image.width, ∀ y < image.height,
    (image.pixel x y).g = (image.pixel x y).r ∧ (image.pixel x y).b = (image.pixel x y).r

theorem plane_congr_pixels (im im' : DynamicImage) (s s' : Rgba → UInt8) (hw : im.width = im'.width) (hh : im.height = im'.height)
    (h : ∀ x < im'.width, ∀ y < im'.height, s (im.pixel x y) = s' (im'.pixel x y)) : im.plane s = im'.plane s' := by
  unfold DynamicImage.plane
  rw [hw, hh]
  congr 1
  refine List.map_congr_left fun k hk => ?_
  have hk := List.mem_range.mp hk
  have hw0 : 0 < im'.width := by
    rcases Nat.eq_zero_or_pos im'.width with h0 | h0
    · rw [h0, Nat.zero_mul] at hk; omega
    · exact h0
  exact h _ (Nat.mod_lt _ hw0) _ ((Nat.div_lt_iff_lt_mul hw0).mpr (by rw [Nat.mul_comm]; exact hk))

/-- The colours of a marked picture, colour by colour, for pictures with and without colour. -/
theorem watermark_colour_planes (D : Deps F) (image out : DynamicImage) (depth step : F) (a : Nat) (hg : GreyPixels image)
    (h : watermark D image depth step a = .ok out) (s : Rgba → UInt8) (hs : s ∈ [Rgba.r, Rgba.g, Rgba.b]) :
    ∃ c, watermarkChannel D (image.plane s) depth step a 3 = .ok c ∧ ∀ x y, s (out.pixel x y) = c.sample x y := by
  obtain ⟨red, e1, e2, e3, e4⟩ := watermark_channels D image out depth step a h
  cases hc : image.color.hasColor with
  | false =>
    have hgr : image.plane Rgba.g = image.plane Rgba.r := plane_congr_pixels _ _ _ _ rfl rfl fun x hx y hy => (hg hc x hx y hy).1
    have hbr : image.plane Rgba.b = image.plane Rgba.r := plane_congr_pixels _ _ _ _ rfl rfl fun x hx y hy => (hg hc x hx y hy).2
    simp only [List.mem_cons, List.not_mem_nil, or_false] at hs
    rcases hs with rfl | rfl | rfl
    · exact ⟨red, e1, e2⟩
    · exact ⟨red, hgr ▸ e1, fun x y => (e3 hc x y).1⟩
    · exact ⟨red, hbr ▸ e1, fun x y => (e3 hc x y).2⟩
  | true =>
    obtain ⟨green, blue, g1, g2, g3⟩ := e4 hc
    simp only [List.mem_cons, List.not_mem_nil, or_false] at hs
    rcases hs with rfl | rfl | rfl
    · exact ⟨red, e1, e2⟩
    · exact ⟨green, g1, fun x y => (g3 x y).1⟩
    · exact ⟨blue, g2, fun x y => (g3 x y).2⟩

/-- C88: if each colour of a picture is some colour of another one of the same size (`take` says which), the same is true of the marked
pictures, and the first can be marked if the second can. -/
theorem watermark_colours (D : Deps F) (image image' out : DynamicImage) (depth step : F) (a : Nat)
    (hw : image'.width = image.width) (hh : image'.height = image.height) (hg : GreyPixels image) (hg' : GreyPixels image')
    (take : (Rgba → UInt8) → Rgba → UInt8) (htake : ∀ s ∈ [Rgba.r, Rgba.g, Rgba.b], take s ∈ [Rgba.r, Rgba.g, Rgba.b])
    (hpixel : ∀ s ∈ [Rgba.r, Rgba.g, Rgba.b], ∀ x < image.width, ∀ y < image.height, s (image'.pixel x y) = take s (image.pixel x y))
    (h : watermark D image depth step a = .ok out) :
    ∃ out', watermark D image' depth step a = .ok out' ∧
      ∀ s ∈ [Rgba.r, Rgba.g, Rgba.b], ∀ x y, s (out'.pixel x y) = take s (out.pixel x y) := by
  have hpl : ∀ s ∈ [Rgba.r, Rgba.g, Rgba.b], image'.plane s = image.plane (take s) := fun s hs =>
    plane_congr_pixels _ _ _ _ hw hh (hpixel s hs)
  have hsrc : ∀ s ∈ [Rgba.r, Rgba.g, Rgba.b], ∃ c, watermarkChannel D (image'.plane s) depth step a 3 = .ok c ∧
      ∀ x y, take s (out.pixel x y) = c.sample x y := by
    intro s hs
    rw [hpl s hs]
    exact watermark_colour_planes D image out depth step a hg h (take s) (htake s hs)
  obtain ⟨out', ho⟩ := (watermark_succeeds_iff D image' depth step a).2
    ⟨(hsrc _ (by simp)).imp fun _ h => h.1, fun _ => ⟨(hsrc _ (by simp)).imp fun _ h => h.1, (hsrc _ (by simp)).imp fun _ h => h.1⟩⟩
  refine ⟨out', ho, fun s hs x y => ?_⟩
  obtain ⟨c, c1, c2⟩ := hsrc s hs
  obtain ⟨c', d1, d2⟩ := watermark_colour_planes D image' out' depth step a hg' ho s hs
  obtain rfl := Except.ok.inj (c1.symm.trans d1)
  rw [c2, d2]

/-- C88: exchanging red and blue before marking or after it makes no difference. -/
theorem watermark_exchanges (D : Deps F) (image image' out : DynamicImage) (depth step : F) (a : Nat)
    (hw : image'.width = image.width) (hh : image'.height = image.height) (hg : GreyPixels image) (hg' : GreyPixels image')
    (hpixel : ∀ x < image.width, ∀ y < image.height, (image'.pixel x y).r = (image.pixel x y).b ∧
      (image'.pixel x y).g = (image.pixel x y).g ∧ (image'.pixel x y).b = (image.pixel x y).r)
    (h : watermark D image depth step a = .ok out) :
    ∃ out', watermark D image' depth step a = .ok out' ∧ ∀ x y, (out'.pixel x y).r = (out.pixel x y).b ∧
      (out'.pixel x y).g = (out.pixel x y).g ∧ (out'.pixel x y).b = (out.pixel x y).r := by
  let swap : Rgba → Rgba := fun p => ⟨p.b, p.g, p.r, p.a⟩
  obtain ⟨out', h1, h2⟩ := watermark_colours D image image' out depth step a hw hh hg hg' (fun s p => s (swap p))
    (by
      intro s hs
      simp only [List.mem_cons, List.not_mem_nil, or_false] at hs ⊢
      rcases hs with rfl | rfl | rfl
      · exact Or.inr (Or.inr rfl)
      · exact Or.inr (Or.inl rfl)
      · exact Or.inl rfl)
    (by
      intro s hs x hx y hy
      obtain ⟨p1, p2, p3⟩ := hpixel x hx y hy
      simp only [List.mem_cons, List.not_mem_nil, or_false] at hs
      rcases hs with rfl | rfl | rfl
      · exact p1
      · exact p2
      · exact p3) h
  exact ⟨out', h1, fun x y => ⟨h2 Rgba.r (by simp) x y, h2 Rgba.g (by simp) x y, h2 Rgba.b (by simp) x y⟩⟩

/-- C88: a colour picture with only grey pixels stays grey; it is marked like the grey picture, whatever the colour types and the alpha
samples of the two are. -/
theorem watermark_grey (D : Deps F) (image image' out : DynamicImage) (depth step : F) (a : Nat)
    (hw : image'.width = image.width) (hh : image'.height = image.height) (hg : GreyPixels image)
    (hpixel : ∀ x < image.width, ∀ y < image.height, (image'.pixel x y).r = (image.pixel x y).r ∧
      (image'.pixel x y).g = (image.pixel x y).r ∧ (image'.pixel x y).b = (image.pixel x y).r)
    (h : watermark D image depth step a = .ok out) :
    ∃ out', watermark D image' depth step a = .ok out' ∧ ∀ x y, (out'.pixel x y).r = (out.pixel x y).r ∧
      (out'.pixel x y).g = (out.pixel x y).r ∧ (out'.pixel x y).b = (out.pixel x y).r := by
  obtain ⟨out', h1, h2⟩ := watermark_colours D image image' out depth step a hw hh hg
    (fun _ x hx y hy => by
      obtain ⟨p1, p2, p3⟩ := hpixel x (hw ▸ hx) y (hh ▸ hy)
      exact ⟨p2.trans p1.symm, p3.trans p1.symm⟩) (fun _ => Rgba.r) (fun _ _ => by simp)
    (by
      intro s hs x hx y hy
      obtain ⟨p1, p2, p3⟩ := hpixel x hx y hy
      simp only [List.mem_cons, List.not_mem_nil, or_false] at hs
      rcases hs with rfl | rfl | rfl
      · exact p1
      · exact p2
      · exact p3) h
  exact ⟨out', h1, fun x y => ⟨h2 Rgba.r (by simp) x y, h2 Rgba.g (by simp) x y, h2 Rgba.b (by simp) x y⟩⟩

/-- C88: a picture put together from the red of one, the green of another and the blue of a third picture has the verdicts of these
three channels: nothing ties the colours of a picture to each other. -/
theorem mixed_colours_authenticate (D : Deps F) (p q t mixed : DynamicImage) (depth step : F) (a : Nat)
    (hsize : (p.width = mixed.width ∧ p.height = mixed.height) ∧ (q.width = mixed.width ∧ q.height = mixed.height) ∧
      (t.width = mixed.width ∧ t.height = mixed.height))
    (hpixel : ∀ x < mixed.width, ∀ y < mixed.height, (mixed.pixel x y).r = (p.pixel x y).r ∧
      (mixed.pixel x y).g = (q.pixel x y).g ∧ (mixed.pixel x y).b = (t.pixel x y).b)
    (hp : ∀ c, IsChannel p Rgba.r c → authenticateChannel D c depth step a 3 = .ok true)
    (hq : ∀ c, IsChannel q Rgba.g c → authenticateChannel D c depth step a 3 = .ok true)
    (ht : ∀ c, IsChannel t Rgba.b c → authenticateChannel D c depth step a 3 = .ok true) :
    ∀ s ∈ [Rgba.r, Rgba.g, Rgba.b], ∀ c, IsChannel mixed s c → authenticateChannel D c depth step a 3 = .ok true := by
  obtain ⟨⟨a1, a2⟩, ⟨b1, b2⟩, ⟨c1, c2⟩⟩ := hsize
  intro s hs c hc
  obtain rfl := (isChannel_iff _ _ _).1 hc
  simp only [List.mem_cons, List.not_mem_nil, or_false] at hs
  rcases hs with rfl | rfl | rfl
  · exact hp _ ((isChannel_iff _ _ _).2 (plane_congr_pixels _ _ _ _ a1.symm a2.symm fun x hx y hy => (hpixel x (a1 ▸ hx) y (a2 ▸ hy)).1))
  · exact hq _ ((isChannel_iff _ _ _).2 (plane_congr_pixels _ _ _ _ b1.symm b2.symm fun x hx y hy => (hpixel x (b1 ▸ hx) y (b2 ▸ hy)).2.1))
  · exact ht _ ((isChannel_iff _ _ _).2 (plane_congr_pixels _ _ _ _ c1.symm c2.symm fun x hx y hy => (hpixel x (c1 ▸ hx) y (c2 ▸ hy)).2.2))

end

/-- With the libraries of `Deps.flatReal` every 512 x 512 channel can be marked. -/
theorem flat_marks_all (c : GrayImage) (hc : c.IsSquare 512) :
    ∃ out, watermarkChannel Deps.flatReal c (FloatOps.ofInt 100) (FloatOps.ofInt 1) 11 3 = .ok out := by
  obtain ⟨m, hm⟩ := flat_marks
  obtain ⟨w, _⟩ := (watermark_succeeds_iff Deps.flatReal testImage _ _ 11).1 ⟨m, hm⟩
  rw [testImage_plane.1] at w
  have hk : Deps.flatReal.ed.keypairOk (builtinSecret ++ builtinPublic) = true := (Ed25519.toy_keyPair _ _ rfl rfl).1
  obtain ⟨h1, h2, h3⟩ := (watermark_accepts_iff Deps.flatReal hk testChannel 512 11 _ _ (by norm_num) testChannel_square).1 w
  refine (watermark_accepts_iff Deps.flatReal hk c 512 11 _ _ (by norm_num) hc).2 ⟨h1, fun fs hfs => h2 fs ?_, h3⟩
  rw [flat_equalizes testChannel c 512 testChannel_square hc]
  exact hfs

/-- A picture with three different colours. -/
def threeColours : DynamicImage := ⟨.Rgb8, 512, 512, fun x y => ⟨UInt8.ofNat x, UInt8.ofNat y, UInt8.ofNat (x * y), 255⟩⟩

theorem threeColours_marks : ∃ out, watermark Deps.flatReal threeColours (FloatOps.ofInt 100) (FloatOps.ofInt 1) 11 = .ok out := by
  have hsq : ∀ s, (threeColours.plane s).IsSquare 512 := fun s => ⟨rfl, rfl, by
    unfold DynamicImage.plane
    rw [List.length_map, List.length_range]
    rfl⟩
  exact (watermark_succeeds_iff _ _ _ _ _).2 ⟨flat_marks_all _ (hsq _), fun _ => ⟨flat_marks_all _ (hsq _), flat_marks_all _ (hsq _)⟩⟩

/-- Red and blue of this picture exchanged, with an alpha channel added. -/
example : ∃ out out', watermark Deps.flatReal threeColours (FloatOps.ofInt 100) (FloatOps.ofInt 1) 11 = .ok out ∧
    watermark Deps.flatReal ⟨.Rgba8, 512, 512, fun x y => ⟨UInt8.ofNat (x * y), UInt8.ofNat y, UInt8.ofNat x, 7⟩⟩
      (FloatOps.ofInt 100) (FloatOps.ofInt 1) 11 = .ok out' ∧
    ∀ x y, (out'.pixel x y).r = (out.pixel x y).b ∧ (out'.pixel x y).g = (out.pixel x y).g ∧ (out'.pixel x y).b = (out.pixel x y).r := by
  obtain ⟨out, ho⟩ := threeColours_marks
  obtain ⟨out', h1, h2⟩ := watermark_exchanges Deps.flatReal threeColours
    ⟨.Rgba8, 512, 512, fun x y => ⟨UInt8.ofNat (x * y), UInt8.ofNat y, UInt8.ofNat x, 7⟩⟩ out _ _ 11 rfl rfl
    (fun h => by cases h) (fun h => by cases h) (fun x _ y _ => ⟨rfl, rfl, rfl⟩) ho
  exact ⟨out, out', ho, h1, h2⟩

/-- The red of this picture as a grey picture. -/
example : ∃ out out', watermark Deps.flatReal threeColours (FloatOps.ofInt 100) (FloatOps.ofInt 1) 11 = .ok out ∧
    watermark Deps.flatReal ⟨.L8, 512, 512, fun x _ => ⟨UInt8.ofNat x, UInt8.ofNat x, UInt8.ofNat x, 255⟩⟩
      (FloatOps.ofInt 100) (FloatOps.ofInt 1) 11 = .ok out' ∧
    ∀ x y, (out'.pixel x y).r = (out.pixel x y).r ∧ (out'.pixel x y).g = (out.pixel x y).r ∧ (out'.pixel x y).b = (out.pixel x y).r := by
  obtain ⟨out, ho⟩ := threeColours_marks
  obtain ⟨out', h1, h2⟩ := watermark_grey Deps.flatReal threeColours
    ⟨.L8, 512, 512, fun x _ => ⟨UInt8.ofNat x, UInt8.ofNat x, UInt8.ofNat x, 255⟩⟩ out _ _ 11 rfl rfl
    (fun h => by cases h) (fun x _ y _ => ⟨rfl, rfl, rfl⟩) ho
  exact ⟨out, out', ho, h1, h2⟩

end Sia
