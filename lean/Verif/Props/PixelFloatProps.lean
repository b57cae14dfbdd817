import Verif.Props.LibmExamples
import Verif.Props.PipelineExamples
import Verif.Props.DistortionProps

/-! C66: the pipeline in double precision, from pixels to verdict. -/
namespace Sia
open FloatOps LawfulFloat

/-- The features the pipeline uses are the computed Zernike features of the equalized image. -/
theorem equalizedFeatures_computed (D : Deps F64) (M : Libm F64) (hD : D.Computed M) (hM : M.Lawful) (c : GrayImage) (n a : Nat)
    (hn : 2 ≤ n) (hn2 : n ≤ 2 ^ 14) (ha : 1 ≤ a) (ha2 : a ≤ 11) (hc : c.IsSquare n) :
    equalizedFeatures D c a = zernikeFeaturesF M (equalizedPixels D c) a := by
  have hsq : (equalizedPixels D c).IsSquare n := ⟨hc.1, hc.2.1⟩
  obtain ⟨fs, hfs, _, _⟩ := features_f64_accurate M hM n a (equalizedPixels D c) ha ha2 hn hn2 hsq
  have hord : orderByFeaturesAmount a = .ok (2 * a - 1) := by
    unfold orderByFeaturesAmount
    rw [if_neg (by omega)]
    congr 1
    omega
  have hidx := momentIndices_odd a ha
  rw [show 1 + 2 * (a - 1) = 2 * a - 1 by omega] at hidx
  have hfs2 := hfs
  unfold zernikeFeaturesF at hfs2
  rw [hord] at hfs2
  simp only [bind, Except.bind] at hfs2
  rw [hidx] at hfs2
  have hlen := mapM_except_length _ _ hfs2
  have he : fs = ((List.range a).map fun k => 2 * k + 1).map fun index => D.momentAbs (2 * a - 1) index (equalizedPixels D c) := by
    apply List.ext_getElem
    · rw [hlen]; simp
    · intro i h1 h2
      have hg := mapM_except_get _ _ hfs2 i (by omega) h1
      rw [List.getElem_map (f := fun index => D.momentAbs (2 * a - 1) index (equalizedPixels D c))]
      cases hm : zernikeMomentF M (2 * a - 1) ((List.range a).map fun k => 2 * k + 1)[i] (equalizedPixels D c) with
      | error e => rw [hm] at hg; cases hg
      | ok w =>
        rw [hm] at hg
        rw [hD _ _ _ _ hm]
        exact (Except.ok.inj hg).symm
  rw [hfs]
  rw [he]
  obtain ⟨c1, c2, c3⟩ := hc
  unfold equalizedFeatures fromShapeVec
  rw [if_pos (by rw [D.equalize_length, c1, c2, c3])]
  simp only [bind, Except.bind]
  have hcf := channelFeatures_eq D (equalizedPixels D c) a ha (by rw [hsq.1, hsq.2]; omega)
  rw [List.map_map]
  exact hcf

/-- A number a quarter of a percent of a unit away from a boundary stays away from it when it is moved by less. -/
theorem away_moved (x y s e μ : ℝ) (hs : 0 < s) (h : AwayFromHalves (e / s + μ) (x / s)) (hy : |y - x| ≤ e) : AwayFromHalves μ (y / s) := by
  intro k
  have h1 := h k
  have h2 : |y / s - x / s| ≤ e / s := by
    rw [← sub_div, abs_div, abs_of_pos hs]
    exact div_le_div_of_nonneg_right hy hs.le
  have h3 := abs_sub_le (x / s) (y / s) (k / 2)
  rw [abs_sub_comm (x / s) (y / s)] at h3
  linarith

/-- C66: end to end in double precision, in terms of pixels and exact Zernike moments. A square channel of side at most 16384 with
1 to 11 features is marked, and every channel within `t` of the marked one in every pixel authenticates, provided histogram
equalisation moves the pixels by at most `π (step - 1/200) / (2a)` on average and no exact moment of the equalised source or of the
equalised received image lies within `1/400 + step/65536` of a multiple of half a step. -/
theorem marked_channel_authenticates_pixels_f64 (D : Deps F64) (M : Libm F64) (hD : D.Computed M) (hM : M.Lawful)
    (hL : D.ldpc.DecodesClean) (hk : D.ed.KeyPair builtinSecret builtinPublic)
    (c : GrayImage) (n levels a : Nat) (depth : F64) (s : ℚ) (t : ℝ) (hc : c.IsSquare n)
    (hg : EmbedGeometry n levels c.pixels) (hs : SignalOK n levels c.pixels depth t)
    (hsup : SupportedCapacity (domainBytes n levels)) (hal : blockBytes (domainBytes n levels) ∣ domainBytes n levels)
    (hfit : recordBytes a + 4 ≤ domainBytes n levels / 2) (hn2 : n ≤ 2 ^ 14) (ha1 : 1 ≤ a) (ha : a ≤ 11)
    (hs1 : 1 / 2 ^ 20 ≤ (s : ℝ)) (hs2 : (s : ℝ) ≤ 2 ^ 100)
    (hsrc : ∀ k < a, AwayFromHalves (1 / 400 / (s : ℝ) + 1 / 2 ^ 16)
      (‖specMoment n (pixelReal (equalizedPixels D c)) (2 * a - 1) (2 * k + 1)‖ / (s : ℝ))) :
    ∃ out, watermarkChannel D c depth (.fin s) a levels = .ok out ∧ out.IsSquare n ∧
      ∀ noisy : GrayImage, noisy.IsSquare n → WithinNoise n t out.pixels noisy.pixels →
        (∀ k < a, AwayFromHalves (1 / 400 / (s : ℝ) + 1 / 2 ^ 16)
          (‖specMoment n (pixelReal (equalizedPixels D noisy)) (2 * a - 1) (2 * k + 1)‖ / (s : ℝ))) →
        meanDifference n (equalizedPixels D c) (equalizedPixels D noisy) ≤ Real.pi * (s - 1 / 200) / (2 * a) →
          authenticateChannel D noisy depth (.fin s) a levels = .ok true := by
  have hn : 2 ≤ n := by
    by_contra hlt
    have hdb : domainBytes n levels ≤ 0 := by
      unfold domainBytes
      have h1 : n / 2 ^ levels ≤ 1 := (Nat.div_le_self _ _).trans (by omega)
      have := Nat.mul_le_mul h1 h1
      omega
    unfold recordBytes at hfit
    omega
  have hs0 : (0 : ℝ) < s := lt_of_lt_of_le (by positivity) hs1
  have hgood : GoodDepth (F64.fin s) := ⟨trivial, by
    show (1 : ℝ) / 2 ^ 100 ≤ (s : ℝ)
    refine le_trans ?_ hs1
    norm_num, hs2⟩
  have vstep : val (F64.fin s) = (s : ℝ) := rfl
  have hmargin : quantMargin F64 (2 ^ 32) ≤ 1 / 2 ^ 16 := by
    unfold quantMargin
    show (1 : ℝ) / 2 ^ 53 * _ ≤ _
    norm_num
  have ha' : (a : ℝ) ≤ 11 := by exact_mod_cast ha
  have hpi3 := Real.pi_gt_three
  -- features of an arbitrary square channel
  have key : ∀ c' : GrayImage, c'.IsSquare n → (∀ k < a, AwayFromHalves (1 / 400 / (s : ℝ) + 1 / 2 ^ 16)
          (‖specMoment n (pixelReal (equalizedPixels D c')) (2 * a - 1) (2 * k + 1)‖ / (s : ℝ))) →
      ∃ fs, equalizedFeatures D c' a = .ok fs ∧ zernikeFeaturesF M (equalizedPixels D c') a = .ok fs ∧
        ∀ f ∈ fs, fin f ∧ |val f| ≤ 2 ^ 32 * val (F64.fin s) ∧ AwayFromHalves (quantMargin F64 (2 ^ 32)) (val f / val (F64.fin s)) := by
    intro c' hc' haway
    have hsq : (equalizedPixels D c').IsSquare n := ⟨hc'.1, hc'.2.1⟩
    obtain ⟨fs, h1, h2, h3⟩ := features_f64_accurate M hM n a _ ha1 ha hn hn2 hsq
    have hrange := features_f64_range M hM n a _ ha1 ha hn hn2 hsq
    obtain ⟨fs', h1', _, hr⟩ := hrange
    rw [h1] at h1'
    cases h1'
    refine ⟨fs, (equalizedFeatures_computed D M hD hM c' n a hn hn2 ha1 ha hc').trans h1, h1, ?_⟩
    intro f hf
    obtain ⟨k, hk', rfl⟩ := List.getElem_of_mem hf
    obtain ⟨x, hx, hxe⟩ := h3 k hk'
    obtain ⟨y, hy, hy1, hy2⟩ := hr _ hf
    rw [hx] at hy
    cases hy
    rw [hx, vstep]
    refine ⟨trivial, ?_, ?_⟩
    · show |(x : ℝ)| ≤ _
      have hb : 510 * (a : ℝ) / Real.pi ≤ 1870 := by
        rw [div_le_iff₀ Real.pi_pos]
        linarith
      have hbig : (4096 : ℝ) ≤ 2 ^ 32 * s := by
        calc (4096 : ℝ) = 2 ^ 32 * (1 / 2 ^ 20) := by norm_num
          _ ≤ 2 ^ 32 * s := mul_le_mul_of_nonneg_left hs1 (by norm_num)
      rw [abs_le]
      constructor <;> linarith
    · exact away_mono (away_moved _ _ _ _ _ hs0 (haway k (by omega)) hxe) hmargin
  obtain ⟨fs, hf1, hf2, hf3⟩ := key c hc hsrc
  obtain ⟨out, h1, h2, h3⟩ := marked_channel_authenticates_float D hL hk c n levels a depth (.fin s) t hc hg hs hsup hal hfit
    (by omega) hgood (2 ^ 32) (by norm_num) (by norm_num) fs hf1 hf3
  refine ⟨out, h1, h2, ?_⟩
  intro noisy hnsq hnoise haway hmean
  obtain ⟨gs, hg1, hg2, hg3⟩ := key noisy hnsq haway
  refine h3 noisy hnsq hnoise gs hg1 (fun g hg' => ⟨(hg3 g hg').1, (hg3 g hg').2.2⟩) ?_
  obtain ⟨fs', gs', e1, e2, hl⟩ := features_f64_lipschitz M hM n a (equalizedPixels D c) (equalizedPixels D noisy) ha1 ha hn hn2
    ⟨hc.1, hc.2.1⟩ ⟨hnsq.1, hnsq.2.1⟩
  rw [hf2] at e1
  rw [hg2] at e2
  cases e1
  cases e2
  refine hl.imp ?_
  rintro f g ⟨x, y, rfl, rfl, hxy⟩
  show |(y : ℝ) - x| ≤ (s : ℝ)
  have ha0 : (0 : ℝ) < a := by exact_mod_cast ha1
  have : 2 * (a : ℝ) / Real.pi * meanDifference n (equalizedPixels D c) (equalizedPixels D noisy) ≤ s - 1 / 200 := by
    calc 2 * (a : ℝ) / Real.pi * meanDifference n (equalizedPixels D c) (equalizedPixels D noisy)
        ≤ 2 * a / Real.pi * (Real.pi * (s - 1 / 200) / (2 * a)) :=
          mul_le_mul_of_nonneg_left hmean (div_nonneg (by positivity) Real.pi_pos.le)
      _ = s - 1 / 200 := by field_simp
  linarith

end Sia
