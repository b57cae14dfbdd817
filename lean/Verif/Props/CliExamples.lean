import Verif.Props.CliProps
import Verif.Props.ForgeryProps

/-! Concrete cases for C43 and C44. -/
namespace Sia
open LawfulFloat

example : fileName "in/photos/cat.tar.png".toList = some "cat.tar.png".toList := by decide
example : stemExt "cat.tar.png".toList = some ("cat.tar".toList, "png".toList) := by decide
example : stemExt ".png".toList = none := by decide
example : fileName "in/..".toList = none := by decide
example : fileName "in/cat.png/.".toList = some "cat.png".toList := by decide
example : outputPath "cat".toList "png".toList "wm".toList (some "/out".toList) = "/out/cat-wm.png".toList := by decide
example : displayElapsed 9 87654321 = "9.08 s" := by decide
example : displayElapsed 0 999999 = "999 µs" := by decide

/-- The command line settings (depth 100, step 1, 11 features) mark the test image. -/
theorem testImage_marks : ∃ out, watermark Deps.toyReal testImage (FloatOps.ofInt 100) (FloatOps.ofInt 1) 11 = .ok out := by
  obtain ⟨out, h1, h2, h3⟩ := marked_channel_authenticates_pixels Deps.toyReal Deps.toyReal_exact Ldpc.toy_decodesClean
    (Ed25519.toy_keyPair _ _ rfl rfl) testChannel 512 3 11 100 1 0 testChannel_square testChannel_geometry
    (by norm_num) (by norm_num) (by
      intro i hi j hj
      obtain ⟨a, b⟩ := testChannel_range i hi j hj
      have a' : (100 : ℝ) ≤ ((testChannel.pixels.get i j).toNat : ℝ) := by exact_mod_cast a
      have b' : ((testChannel.pixels.get i j).toNat : ℝ) ≤ 131 := by exact_mod_cast b
      constructor <;> linarith) (by decide) (by decide) (by decide) (by decide) (by decide) (by norm_num)
  obtain ⟨e1, e2, e3⟩ := testImage_plane
  have hl : (FloatOps.ofInt 100 : ℝ) = 100 := by show (((100 : ℤ)) : ℝ) = 100; norm_num
  have hs : (FloatOps.ofInt 1 : ℝ) = 1 := by show (((1 : ℤ)) : ℝ) = 1; norm_num
  rw [hl, hs]
  exact (watermark_succeeds_iff Deps.toyReal testImage 100 1 11).mpr
    ⟨⟨out, e1 ▸ h1⟩, fun _ => ⟨⟨out, e2 ▸ h1⟩, ⟨out, e3 ▸ h1⟩⟩⟩

/-- A world in which every file decodes to the test image and encoding writes a header, then the first byte of the image. -/
noncomputable def toyWorld : World ℝ where
  Loc := PathStr
  decEq := inferInstance
  deps := Deps.toyReal
  resolve := id
  decode _ _ := some testImage
  formatOf _ := some 0
  encode _ image := ([[1]] ++ [[1, (image.pixel 0 0).r]], true)
  creatable _ := true
  blocked _ := false
  folder o := some o

/-- Two inputs meeting the hypotheses of the batch theorems. -/
theorem toyWorld_clean : ∃ v, CleanBatch toyWorld "wm".toList (some "out".toList) (fun _ => some [7])
    ["in/a.png".toList, "in/b.png".toList] [("out/a-wm.png".toList, [1, v]), ("out/b-wm.png".toList, [1, v])] := by
  obtain ⟨out, hout⟩ := testImage_marks
  refine ⟨(out.pixel 0 0).r, ⟨?_, ?_, ?_⟩⟩
  · refine .cons ⟨[7], rfl, testImage, out, "a".toList, "png".toList, 0, [[1]], rfl, hout, ⟨by decide, by decide, by decide⟩,
      by show ("out/a-wm.png".toList : List Char) = OutName "a".toList "png".toList "wm".toList (some "out".toList); decide, rfl, rfl, rfl⟩ (.cons ⟨[7], rfl, testImage, out, "b".toList, "png".toList, 0, [[1]], rfl, hout,
      ⟨by decide, by decide, by decide⟩, by show ("out/b-wm.png".toList : List Char) = OutName "b".toList "png".toList "wm".toList (some "out".toList); decide, rfl, rfl, rfl⟩ .nil)
  · show ["out/a-wm.png".toList, "out/b-wm.png".toList].Nodup
    decide
  · intro r hr i hi
    simp only [List.mem_cons, List.not_mem_nil, or_false] at hr hi
    rcases hr with rfl | rfl <;> rcases hi with rfl | rfl
    · exact (by decide : ("out/a-wm.png".toList : List Char) ≠ "in/a.png".toList)
    · exact (by decide : ("out/a-wm.png".toList : List Char) ≠ "in/b.png".toList)
    · exact (by decide : ("out/b-wm.png".toList : List Char) ≠ "in/a.png".toList)
    · exact (by decide : ("out/b-wm.png".toList : List Char) ≠ "in/b.png".toList)

end Sia
