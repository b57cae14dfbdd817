import Verif.Props.NoisyGenerationProps
import Verif.Props.LargeStepProps

/-! C92 for pictures, with the settings of the tool. -/
namespace Sia
open FloatOps LawfulFloat Finset

/-- One generation in the life of a picture, for one colour of one block of 8 x 8 pixels: `x`, whose samples in the block are between 10
and 245, is marked with depth 100 and 11 features, and then becomes `y`, of the same size, by losses that change the sum of the samples
of the block by at most 160 (the mean by at most 2.5 levels) and are otherwise arbitrary. -/
def LossyGeneration (n : Nat) (s : Rgba → UInt8) (i j : Nat) (x y : DynamicImage) : Prop :=
  ∃ (D : Deps F64) (step : F64) (marked : DynamicImage),
    (∀ i' < n, ∀ j' < n, SameBlock i j i' j' → 10 ≤ (s (x.pixel i' j')).toNat ∧ (s (x.pixel i' j')).toNat ≤ 245) ∧
    watermark D x (F64.fin 100) step 11 = .ok marked ∧ GreyPixels y ∧ y.width = n ∧ y.height = n ∧
    |(sampleSum y s i j : ℤ) - sampleSum marked s i j| ≤ 160

/-- The channel of a marked picture, and the multiple of 8. -/
theorem marked_plane (n : Nat) (D : Deps F64) (x marked : DynamicImage) (step : F64) (hn : 0 < n) (hw : x.width = n) (hh : x.height = n)
    (hg : GreyPixels x) (h : watermark D x (F64.fin 100) step 11 = .ok marked) (s : Rgba → UInt8) (hs : s ∈ [Rgba.r, Rgba.g, Rgba.b]) :
    watermarkChannel D (x.plane s) (F64.fin 100) step 11 3 = .ok (marked.plane s) ∧ marked.width = n ∧ marked.height = n ∧ 8 ∣ n := by
  obtain ⟨k1, k2, _⟩ := watermark_keeps_shape_and_alpha D x marked _ step 11 h
  obtain ⟨m, m1, m2⟩ := watermark_colour_planes D x marked _ step 11 hg h s hs
  obtain ⟨a1, a2, a3⟩ := watermarkChannel_out D _ m _ step 11 3 m1
  have e := plane_of_sample marked s m (by rw [a1, k1]; rfl) (by rw [a2, k2]; rfl) a3 m2
  refine ⟨by rw [e]; exact m1, k1.trans hw, k2.trans hh, ?_⟩
  have hsq := plane_isSquare x n hw hh s
  obtain ⟨_, _, _, _, _, fs, q, p', record, r, _, _, _, _, hm, _⟩ := watermarkChannel_ok_only D _ m _ step 11 3 m1
  have := (embed_ok_only D.ldpc (x.plane s).pixels r record _ 3 (by show 0 < (x.plane s).width; rw [hsq.1]; exact hn)
    (by show 0 < (x.plane s).height; rw [hsq.2.1]; exact hn) hm).2.2.1
  have e : (x.plane s).pixels.rows = n := hsq.1
  rw [e] at this
  simpa using this

/-- C92: a picture that is marked again and again with the settings of the tool, with losses after each marking, never loses the mean of a
block that carries a bit of the record: after the last marking it is at most 632/64 = 9.875 levels away from the mean in the original,
just as after the first marking. -/
theorem lossy_generations (n : Nat) (image before out : DynamicImage) (hn : 0 < n) (hw : image.width = n) (hh : image.height = n)
    (hg : GreyPixels image) (s : Rgba → UInt8) (hs : s ∈ [Rgba.r, Rgba.g, Rgba.b]) (i j : Nat) (hi : i < n) (hj : j < n)
    (ho : j / 8 * (n / 8) + i / 8 < 8 * encodedLength (domainBytes n 3) (recordBytes 11))
    (h : Relation.ReflTransGen (LossyGeneration n s i j) image before) (D : Deps F64) (step : F64)
    (hroom : ∀ i' < n, ∀ j' < n, SameBlock i j i' j' → 10 ≤ (s (before.pixel i' j')).toNat ∧ (s (before.pixel i' j')).toNat ≤ 245)
    (hlast : watermark D before (F64.fin 100) step 11 = .ok out) :
    |(sampleSum out s i j : ℤ) - sampleSum image s i j| ≤ 632 := by
  have hv : val (F64.fin 100) = 100 := depth100.1
  have hsl := embedSlack_double 3 le_rfl
  have hsl0 := embedSlack_nonneg (F := F64) 3
  have h2 : (2 : ℝ) ^ 3 = 8 := by norm_num
  have h2' : 2 ^ 3 = 8 := by norm_num
  have good : ∀ z, Relation.ReflTransGen (LossyGeneration n s i j) image z → z.width = n ∧ z.height = n ∧ GreyPixels z := by
    intro z hz
    rcases Relation.ReflTransGen.cases_tail hz with rfl | ⟨_, _, _, _, _, _, _, g, g1, g2, _⟩
    · exact ⟨hw, hh, hg⟩
    · exact ⟨g1, g2, g⟩
  obtain ⟨bw, bh, bg⟩ := good before h
  obtain ⟨hlc, ow, oh, h8⟩ := marked_plane n D before out step hn bw bh bg hlast s hs
  set Room : GrayImage → Prop := fun c => ∀ x < n, ∀ y < n, x / 8 = j / 8 → y / 8 = i / 8 →
    10 ≤ (c.pixels.get x y).toNat ∧ (c.pixels.get x y).toNat ≤ 245 with hRoom
  have room : ∀ z : DynamicImage, z.width = n → z.height = n →
      (∀ i' < n, ∀ j' < n, SameBlock i j i' j' → 10 ≤ (s (z.pixel i' j')).toNat ∧ (s (z.pixel i' j')).toNat ≤ 245) → Room (z.plane s) := by
    intro z zw zh hz x hx y hy hxj hyi
    rw [← sample_pixels _ n _ _ (plane_isSquare z n zw zh s), plane_sample z s _ _ (by omega) (by omega)]
    exact hz y hy x hx ⟨hyi, hxj⟩
  have hch : Relation.ReflTransGen (fun x y => ∃ (D : Deps F64) (step : F64) (m : GrayImage), Room x ∧
      watermarkChannel D x (F64.fin 100) step 11 3 = .ok m ∧
      y.IsSquare n ∧ |blockValue 3 y.pixels j i - blockValue 3 m.pixels j i| ≤ 20) (image.plane s) (before.plane s) := by
    clear hlast hlc hroom bw bh bg
    induction h with
    | refl => exact .refl
    | tail hxy hstep ih =>
      rename_i x y
      obtain ⟨xw, xh, xg⟩ := good x hxy
      obtain ⟨D, step, m, f1, f2, f3, f4, f5, f6⟩ := hstep
      obtain ⟨g1, g2, g3, _⟩ := marked_plane n D x m step hn xw xh xg f2 s hs
      refine ih.tail ⟨D, step, m.plane s, room x xw xh f1, g1, plane_isSquare y n f4 f5 s, ?_⟩
      rw [blockValue_plane y n f4 f5 h8 s i j hi hj, blockValue_plane m n g2 g3 h8 s i j hi hj, ← sub_div, abs_div,
        abs_of_pos (by norm_num : (0 : ℝ) < 8), div_le_iff₀ (by norm_num)]
      have : |((sampleSum y s i j : ℤ) : ℝ) - ((sampleSum m s i j : ℤ) : ℝ)| ≤ 160 := by exact_mod_cast f6
      push_cast at this
      linarith
  have key := mean_never_drifts n 3 11 (image.plane s) (before.plane s) (out.plane s) (F64.fin 100) 20 hn (plane_isSquare image n hw hh s)
    depth100.2 (by rw [hv]; norm_num) (by rw [hv, h2]; linarith) j i hj hi (by unfold pixelCell; rw [h2']; exact ho) Room
    (by
      rw [hv, h2, h2']
      intro c hc x hx y hy hxj hyi
      obtain ⟨r1, r2⟩ := hc x hx y hy hxj hyi
      have r1' : (10 : ℝ) ≤ ((c.pixels.get x y).toNat : ℝ) := by exact_mod_cast r1
      have r2' : ((c.pixels.get x y).toNat : ℝ) ≤ 245 := by exact_mod_cast r2
      constructor <;> linarith) hch D step hlc (room before bw bh hroom)
  rw [blockValue_plane out n ow oh h8 s i j hi hj, blockValue_plane image n hw hh h8 s i j hi hj, ← sub_div, abs_div,
    abs_of_pos (by norm_num : (0 : ℝ) < 8), div_le_iff₀ (by norm_num), hv, h2] at key
  have k2 : |((sampleSum out s i j : ℤ) : ℝ) - ((sampleSum image s i j : ℤ) : ℝ)| < 633 := by
    push_cast
    linarith
  have k3 : |(sampleSum out s i j : ℤ) - sampleSum image s i j| < 633 := by exact_mod_cast k2
  omega

end Sia
