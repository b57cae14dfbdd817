import Verif.Props.WebSchedule
import Verif.Props.CliExamples

/-! Concrete cases for C59 and C60. -/
namespace Sia
open LawfulFloat

/-- The settings of the page (depth 500, step 1, 11 features) mark the test image. -/
theorem testImage_marks_web : ∃ out, watermark Deps.toyReal testImage (FloatOps.ofInt 500) (FloatOps.ofInt 1) 11 = .ok out := by
  obtain ⟨out, h1, h2, h3⟩ := marked_channel_authenticates_pixels Deps.toyReal Deps.toyReal_exact Ldpc.toy_decodesClean
    (Ed25519.toy_keyPair _ _ rfl rfl) testChannel 512 3 11 500 1 0 testChannel_square testChannel_geometry
    (by norm_num) (by norm_num) (by
      intro i hi j hj
      obtain ⟨a, b⟩ := testChannel_range i hi j hj
      have a' : (100 : ℝ) ≤ ((testChannel.pixels.get i j).toNat : ℝ) := by exact_mod_cast a
      have b' : ((testChannel.pixels.get i j).toNat : ℝ) ≤ 131 := by exact_mod_cast b
      constructor <;> linarith) (by decide) (by decide) (by decide) (by decide) (by decide) (by norm_num)
  obtain ⟨e1, e2, e3⟩ := testImage_plane
  have hl : (FloatOps.ofInt 500 : ℝ) = 500 := by show (((500 : ℤ)) : ℝ) = 500; norm_num
  have hs : (FloatOps.ofInt 1 : ℝ) = 1 := by show (((1 : ℤ)) : ℝ) = 1; norm_num
  rw [hl, hs]
  exact (watermark_succeeds_iff Deps.toyReal testImage 500 1 11).mpr
    ⟨⟨out, e1 ▸ h1⟩, fun _ => ⟨⟨out, e2 ▸ h1⟩, ⟨out, e3 ▸ h1⟩⟩⟩

/-- A browser in which blobs that start with 137 are PNG, others JPEG, and all decode to the test image; an empty blob is refused. -/
noncomputable def toyWeb : WebWorld ℝ where
  deps := Deps.toyReal
  guess blob := if blob = [] then none else some (if blob.head? = some 137 then "Png" else "Jpeg")
  decode blob := if blob = [] then none else some testImage

theorem toyWeb_process (mime : List Char) (blob : List UInt8) (hm : PlainImageType mime) (hc : ',' ∉ mime) (hb : blob ≠ []) :
    ∃ p, fileProcess toyWeb ⟨mime, blob⟩ = some p ∧ p.sourceFormat = (if blob.head? = some 137 then "Png" else "Jpeg") := by
  obtain ⟨out, ho⟩ := testImage_marks_web
  have hg : toyWeb.guess blob = some (if blob.head? = some 137 then "Png" else "Jpeg") := if_neg hb
  have hd : toyWeb.decode blob = some testImage := if_neg hb
  obtain ⟨p, hp⟩ := (process_succeeds_iff toyWeb blob (FloatOps.ofInt 500) (FloatOps.ofInt 1)).2 ⟨_, testImage, out, hg, hd, ho⟩
  refine ⟨p, ?_, ?_⟩
  · unfold fileProcess contentProcess
    dsimp only
    rw [(file_decoded mime blob blob hc).2 ⟨hm, rfl⟩]
    dsimp only
    rw [hp]
    rfl
  · have := (process_images toyWeb blob _ _ p testImage hd hp).1
    rw [hg] at this
    exact (Option.some_inj.1 this).symm

theorem png_plain : PlainImageType "image/png".toList := ⟨['p', 'n', 'g'], by decide, by decide, by decide⟩

/-- C59 has a non-trivial case: a PNG file of the test image is shown, with at most 47 levels between the canvases. -/
example : ∃ p, fileProcess toyWeb ⟨"image/png".toList, [137, 80]⟩ = some p ∧ p.sourceFormat = "Png" ∧
    ∀ x < 512, ∀ y < 512, ∃ s m : Rgba, p.source.PixelAt x y s ∧ p.watermarked.PixelAt x y m ∧
      m.r.toNat ≤ s.r.toNat + 47 ∧ s.r.toNat ≤ m.r.toNat + 47 := by
  obtain ⟨p, h1, h2⟩ := toyWeb_process "image/png".toList [137, 80] png_plain (by decide) (by simp)
  refine ⟨p, h1, by simpa using h2, ?_⟩
  intro x hx y hy
  obtain ⟨s, m, a, b, c, d, -⟩ := shown_distortion toyWeb _ [137, 80] p testImage 512 (by norm_num) rfl rfl
    ((file_decoded "image/png".toList [137, 80] [137, 80] (by decide)).2 ⟨png_plain, rfl⟩) (show (if ([137, 80] : List UInt8) = [] then none else some testImage) = some testImage from if_neg (by simp))
    h1 x hx y hy
  exact ⟨s, m, a, b, c, d⟩

/-- C60: two different files chosen one after the other; the reader of the first ends last, and the page shows the first. -/
example : ∃ (A B : WebFile) (url : List Char) (s : ContentState) (a b : WatermarkingProcess), a ≠ b ∧
    fileProcess toyWeb A = some a ∧ fileProcess toyWeb B = some b ∧
    contentRun toyWeb (contentStart 1) [.demo url, .choose A, .choose B, .ready 1, .ready 0] = some s ∧ s.shown = some a := by
  obtain ⟨a, h1, h2⟩ := toyWeb_process "image/png".toList [137, 80] png_plain (by decide) (by simp)
  obtain ⟨b, h3, h4⟩ := toyWeb_process "image/png".toList [255, 216] png_plain (by decide) (by simp)
  obtain ⟨s, h5, h6, -⟩ := stale_choice_shown toyWeb 0 _ ⟨_, [137, 80]⟩ ⟨_, [255, 216]⟩ a a b h1 h1 h3
  refine ⟨_, _, _, s, a, b, ?_, h1, h3, h5, h6⟩
  rintro rfl
  rw [h2] at h4
  simp at h4

theorem runs_in_order {F : Type} [FloatOps F] (W : WebWorld F) (url : List Char) (A B : WebFile) (d a b : WatermarkingProcess)
    (hd : contentProcess W url = some d) (ha : fileProcess W A = some a) (hb : fileProcess W B = some b) :
    ∃ s, contentRun W (contentStart 1) [.demo url, .choose A, .cancel, .ready 0, .choose B, .ready 1, .cancel] = some s ∧
      s.pending = [] := by
  unfold fileProcess at ha hb
  simp [contentRun, contentStep, contentStart, hd, ha, hb, showResult]

/-- The same files with readers that end in order: the last choice is shown (the hypotheses of `last_choice_shown` are met). -/
example : ∃ (B : WebFile) (b : WatermarkingProcess) (es : List ContentEvent) (s : ContentState), es.length = 7 ∧
    fileProcess toyWeb B = some b ∧ contentRun toyWeb (contentStart 1) es = some s ∧ (chosenFiles es).length = 2 ∧
    (chosenFiles es).getLast? = some B ∧ s.shown = some b := by
  obtain ⟨a, h1, h2⟩ := toyWeb_process "image/png".toList [137, 80] png_plain (by decide) (by simp)
  obtain ⟨b, h3, h4⟩ := toyWeb_process "image/png".toList [255, 216] png_plain (by decide) (by simp)
  obtain ⟨s, h5, h6⟩ := runs_in_order toyWeb _ ⟨"image/png".toList, [137, 80]⟩ ⟨"image/png".toList, [255, 216]⟩ a a b h1 h1 h3
  refine ⟨⟨"image/png".toList, [255, 216]⟩, b, _, s, rfl, h3, h5, rfl, rfl, ?_⟩
  exact last_choice_shown toyWeb _ s ⟨"image/png".toList, [255, 216]⟩ b h5 h6 (by simp [endedReaders]) rfl
    (by simp [chosenFiles]) h3

end Sia
