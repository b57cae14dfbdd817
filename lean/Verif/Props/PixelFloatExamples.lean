import Verif.Props.PixelFloatProps

/-! C66 on a concrete channel: a picture with a dark and a bright half, marked and received with noise, in double precision. -/
namespace Sia
open FloatOps LawfulFloat Finset

/-- Dependencies in double precision whose moments are computed by the code with the library of exactly rounded functions. -/
noncomputable def Deps.computedDouble : Deps F64 where
  ldpc := Ldpc.toy
  ed := Ed25519.toy
  equalize c := c.raw
  momentAbs order index image :=
    match zernikeMomentF idealLibm order index image with
    | .ok w => idealLibm.hypot w.1 w.2
    | .error _ => F64.nan
  equalize_length _ := rfl

theorem computedDouble_computed : Deps.computedDouble.Computed idealLibm := by
  intro order index image w h
  show (match zernikeMomentF idealLibm order index image with
    | .ok w => idealLibm.hypot w.1 w.2
    | .error _ => F64.nan) = _
  rw [h]

/-- A 512 x 512 channel, 50 in the upper and 200 in the lower half. -/
def splitChannel : GrayImage := ⟨512, 512, (List.range (512 * 512)).map fun k => if k / 512 < 256 then 50 else 200⟩

theorem splitChannel_square : splitChannel.IsSquare 512 := ⟨rfl, rfl, by unfold splitChannel; rw [List.length_map, List.length_range]⟩

theorem splitChannel_get (i j : Nat) (hi : i < 512) (hj : j < 512) :
    (splitChannel.pixels.get i j).toNat = if i < 256 then 50 else 200 := by
  unfold splitChannel GrayImage.pixels
  dsimp only
  rw [List.getD_eq_getElem?_getD, List.getElem?_map, List.getElem?_range (by omega), Option.map_some, Option.getD_some]
  rw [show (i * 512 + j) / 512 = i by omega]
  split_ifs <;> rfl

theorem splitChannel_geometry : EmbedGeometry 512 3 splitChannel.pixels :=
  ⟨⟨rfl, rfl⟩, by decide, by decide, by decide, by decide⟩

theorem equalizedPixels_computedDouble (c : GrayImage) : equalizedPixels Deps.computedDouble c = c.pixels := by
  unfold equalizedPixels GrayImage.pixels
  rfl

theorem zernikeV_one_one (z : ℂ) : zernikeV 1 1 z = z := by
  unfold zernikeV zernikeRadial
  simp

theorem split_sum : ∑ i ∈ range 512, (if i < 256 then (50 : ℤ) else 200) * (2 * (i : ℤ) - 511) = 150 * 65536 := by
  decide +kernel

/-- The first moment of the channel is at least 12. -/
theorem splitChannel_moment : 12 ≤ ‖specMoment 512 (pixelReal splitChannel.pixels) 1 1‖ := by
  have hsum : ∑ i ∈ range 512, ∑ j ∈ range 512, ((pixelReal splitChannel.pixels i j : ℝ) : ℂ) * (starRingEnd ℂ) (zernikeV 1 1 (pixelPoint 512 i j))
      = ∑ i ∈ range 512, ∑ j ∈ range 512, (((if i < 256 then (50 : ℝ) else 200) : ℝ) : ℂ) * (starRingEnd ℂ) (pixelPoint 512 i j) := by
    refine sum_congr rfl fun i hi => sum_congr rfl fun j hj => ?_
    rw [zernikeV_one_one]
    congr 2
    unfold pixelReal
    rw [splitChannel_get i j (mem_range.mp hi) (mem_range.mp hj)]
    split_ifs <;> norm_num
  have hre : (∑ i ∈ range 512, ∑ j ∈ range 512, (((if i < 256 then (50 : ℝ) else 200) : ℝ) : ℂ) * (starRingEnd ℂ) (pixelPoint 512 i j)).re
      = 512 * (150 * 65536) / (Real.sqrt 2 * 511) := by
    rw [Complex.re_sum]
    simp_rw [Complex.re_sum, Complex.re_ofReal_mul, Complex.conj_re]
    unfold pixelPoint
    dsimp only
    simp only [sum_const, card_range, nsmul_eq_mul]
    have h := split_sum
    have h' : (∑ i ∈ range 512, (if i < 256 then (50 : ℝ) else 200) * (2 * (i : ℝ) - 511)) = 150 * 65536 := by exact_mod_cast h
    have e : ∀ i ∈ range 512, ((512 : ℕ) : ℝ) * ((if i < 256 then (50 : ℝ) else 200) * ((2 * (i : ℝ) - (((512 : ℕ) : ℝ) - 1)) / (Real.sqrt 2 * (((512 : ℕ) : ℝ) - 1))))
        = ((if i < 256 then (50 : ℝ) else 200) * (2 * (i : ℝ) - 511)) * (512 / (Real.sqrt 2 * 511)) := by
      intro i _
      have e5 : ((512 : ℕ) : ℝ) - 1 = 511 := by norm_num
      have e6 : ((512 : ℕ) : ℝ) = 512 := by norm_num
      rw [e5, e6]
      ring
    refine (sum_congr rfl e).trans ?_
    have key : ∀ X : ℝ, X = 150 * 65536 → X * (512 / (Real.sqrt 2 * 511)) = 512 * (150 * 65536) / (Real.sqrt 2 * 511) := by
      intro X hX
      rw [hX]
      ring
    exact (sum_mul _ _ _).symm.trans (key _ h')
  unfold specMoment
  rw [hsum]
  set S := ∑ i ∈ range 512, ∑ j ∈ range 512, (((if i < 256 then (50 : ℝ) else 200) : ℝ) : ℂ) * (starRingEnd ℂ) (pixelPoint 512 i j) with hS
  have hn : 512 * (150 * 65536) / (Real.sqrt 2 * 511) ≤ ‖S‖ := by rw [← hre]; exact Complex.re_le_norm S
  rw [norm_div, norm_mul, norm_div, norm_mul]
  have e1 : ‖((1 : ℕ) : ℂ) + 1‖ = 2 := by norm_num
  have e2 : ‖(Real.pi : ℂ)‖ = Real.pi := by rw [Complex.norm_real, Real.norm_eq_abs, abs_of_pos Real.pi_pos]
  have e3 : ‖((512 : ℕ) : ℂ)‖ = 512 := by rw [Complex.norm_natCast]; norm_num
  rw [e1, e2, e3]
  have h2 : Real.sqrt 2 ≤ 3 / 2 := by
    rw [Real.sqrt_le_left (by norm_num)]; norm_num
  have h2p : 0 < Real.sqrt 2 := Real.sqrt_pos.mpr (by norm_num)
  have hn2 : 512 * (150 * 65536) / (3 / 2 * 511) ≤ ‖S‖ := by
    refine le_trans ?_ hn
    apply div_le_div_of_nonneg_left (by norm_num) (by positivity)
    nlinarith
  have hpi := Real.pi_lt_d2
  have hpp := Real.pi_pos
  rw [le_div_iff₀ (by norm_num), div_mul_eq_mul_div, le_div_iff₀ hpp]
  norm_num at hn2 hpi ⊢
  nlinarith

theorem pixelReal_abs_sum_le (m m' : Mat UInt8) (b : ℝ) (h : ∀ i < 512, ∀ j < 512, |pixelReal m i j - pixelReal m' i j| ≤ b) :
    (∑ i ∈ range 512, ∑ j ∈ range 512, |pixelReal m i j - pixelReal m' i j|) / (((512 : ℕ) : ℝ) * ((512 : ℕ) : ℝ)) ≤ b := by
  rw [div_le_iff₀ (by norm_num)]
  refine (sum_le_sum fun i hi => sum_le_sum fun j hj => h i (mem_range.mp hi) j (mem_range.mp hj)).trans (le_of_eq ?_)
  simp only [sum_const, card_range, nsmul_eq_mul]
  ring

theorem moment_away (m : Mat UInt8) (h : 7 ≤ ‖specMoment 512 (pixelReal m) 1 1‖) :
    AwayFromHalves (1 / 400 / ((10000 : ℚ) : ℝ) + 1 / 2 ^ 16) (‖specMoment 512 (pixelReal m) 1 1‖ / ((10000 : ℚ) : ℝ)) := by
  have hup := specMoment_norm_le 512 (pixelReal m) 1 1 (by norm_num) le_rfl rfl
  have hz : (∑ i ∈ range 512, ∑ j ∈ range 512, |pixelReal m i j|) / (((512 : ℕ) : ℝ) * ((512 : ℕ) : ℝ)) ≤ 255 := by
    rw [div_le_iff₀ (by norm_num)]
    refine (sum_le_sum fun i hi => sum_le_sum fun j hj => (?_ : _ ≤ (255 : ℝ))).trans (le_of_eq ?_)
    · unfold pixelReal
      rw [abs_of_nonneg (by positivity)]
      have : (m.get i j).toNat ≤ 255 := by have := (m.get i j).toNat_lt; omega
      exact_mod_cast this
    · simp only [sum_const, card_range, nsmul_eq_mul]
      ring
  have hpi := Real.pi_gt_three
  have hb : ‖specMoment 512 (pixelReal m) 1 1‖ ≤ 170 := by
    refine hup.trans ?_
    have h1 : (((1 : ℕ) : ℝ) + 1) / Real.pi ≤ 2 / 3 := by
      rw [div_le_div_iff₀ Real.pi_pos (by norm_num)]
      push_cast
      linarith
    have h2 : (0 : ℝ) ≤ (((1 : ℕ) : ℝ) + 1) / Real.pi := by positivity
    calc _ ≤ 2 / 3 * (255 : ℝ) := mul_le_mul h1 hz (div_nonneg (sum_nonneg fun _ _ => sum_nonneg fun _ _ => abs_nonneg _) (by norm_num)) (by norm_num)
      _ = 170 := by norm_num
  intro k
  push_cast
  rcases le_or_gt k 0 with hk | hk
  · have hk' : (k : ℝ) ≤ 0 := by exact_mod_cast hk
    rw [abs_of_nonneg (by
      have : 0 ≤ ‖specMoment 512 (pixelReal m) 1 1‖ / (10000 : ℝ) := by positivity
      linarith)]
    have : 7 / (10000 : ℝ) ≤ ‖specMoment 512 (pixelReal m) 1 1‖ / (10000 : ℝ) := by linarith
    norm_num at this ⊢
    linarith
  · have hk' : (1 : ℝ) ≤ k := by exact_mod_cast hk
    rw [abs_sub_comm, abs_of_nonneg (by linarith)]
    norm_num
    linarith

/-- C66 on a concrete picture: with 1 feature, step 10000 and depth 50 the channel above is marked in double precision, and every
received channel within one level of the marked one in every sample authenticates. -/
theorem splitChannel_authenticates : ∃ out, watermarkChannel Deps.computedDouble splitChannel (.fin 50) (.fin 10000) 1 3 = .ok out ∧
    out.IsSquare 512 ∧ ∀ noisy : GrayImage, noisy.IsSquare 512 → WithinNoise 512 1 out.pixels noisy.pixels →
      authenticateChannel Deps.computedDouble noisy (.fin 50) (.fin 10000) 1 3 = .ok true := by
  have hpixels : ∀ i < 512, ∀ j < 512, (50 : ℝ) ≤ ((splitChannel.pixels.get i j).toNat : ℝ) ∧ ((splitChannel.pixels.get i j).toNat : ℝ) ≤ 200 := by
    intro i hi j hj
    rw [splitChannel_get i j hi hj]
    split_ifs <;> norm_num
  have hs : SignalOK 512 3 splitChannel.pixels (F64.fin 50) 1 := by
    refine signalOK_double 512 3 le_rfl _ 50 1 (by norm_num) (by norm_num) ?_
    intro i hi j hj
    obtain ⟨h1, h2⟩ := hpixels i hi j hj
    constructor
    · refine le_trans ?_ h1; norm_num
    · refine le_trans h2 ?_; norm_num
  have hsrc : ∀ k < 1, AwayFromHalves (1 / 400 / ((10000 : ℚ) : ℝ) + 1 / 2 ^ 16)
      (‖specMoment 512 (pixelReal (equalizedPixels Deps.computedDouble splitChannel)) (2 * 1 - 1) (2 * k + 1)‖ / ((10000 : ℚ) : ℝ)) := by
    intro k hk
    obtain rfl : k = 0 := by omega
    rw [equalizedPixels_computedDouble]
    exact moment_away _ (le_trans (by norm_num) splitChannel_moment)
  obtain ⟨out, h1, h2, h3⟩ := marked_channel_authenticates_pixels_f64 Deps.computedDouble idealLibm computedDouble_computed
    idealLibm_lawful Ldpc.toy_decodesClean (Ed25519.toy_keyPair _ _ rfl rfl) splitChannel 512 3 1 (.fin 50) 10000 1
    splitChannel_square splitChannel_geometry hs (by decide) (by decide) (by decide) (by norm_num) le_rfl (by norm_num)
    (by norm_num) (by norm_num) hsrc
  refine ⟨out, h1, h2, fun noisy hn hw => h3 noisy hn hw ?_ ?_⟩
  · intro k hk
    obtain rfl : k = 0 := by omega
    rw [equalizedPixels_computedDouble]
    apply moment_away
    have hd := (watermarkChannel_distortion_float Deps.computedDouble splitChannel out 512 3 1 (.fin 50) (.fin 10000) (by norm_num)
      splitChannel_square ⟨trivial, by
        show (1 : ℝ) / 2 ^ 100 ≤ ((50 : ℚ) : ℝ)
        norm_num, by
        show ((50 : ℚ) : ℝ) ≤ 2 ^ 100
        norm_num⟩ (by
        show (1 : ℝ) ≤ ((50 : ℚ) : ℝ)
        norm_num) h1).2
    have hv : val (F64.fin 50) = 50 := by
      show ((50 : ℚ) : ℝ) = 50
      norm_num
    have hslack := embedSlack_double 3 le_rfl
    have hdiff : ∀ i < 512, ∀ j < 512, |pixelReal splitChannel.pixels i j - pixelReal noisy.pixels i j| ≤ 13 / 2 := by
      intro i hi j hj
      have e1 := hd i hi j hj
      have e2 := hw.2 i hi j hj
      rw [hv] at e1
      unfold pixelReal
      have e3 := abs_sub_le ((noisy.pixels.get i j).toNat : ℝ) ((out.pixels.get i j).toNat : ℝ) ((splitChannel.pixels.get i j).toNat : ℝ)
      rw [abs_sub_comm]
      have e4 : (3 / 4 + embedSlack F64 3) * 50 / 2 ^ 3 + 1 / 2 ≤ 11 / 2 := by
        have : embedSlack F64 3 ≤ 1 / 100 := hslack.trans (by norm_num)
        linarith
      linarith
    have hm := pixelReal_abs_sum_le _ _ _ hdiff
    have hl := specMoment_norm_le 512 (fun i j => pixelReal splitChannel.pixels i j - pixelReal noisy.pixels i j) 1 1 (by norm_num) le_rfl rfl
    rw [← specMoment_sub] at hl
    have hpi := Real.pi_gt_three
    have hq : (((1 : ℕ) : ℝ) + 1) / Real.pi ≤ 2 / 3 := by
      rw [div_le_div_iff₀ Real.pi_pos (by norm_num)]
      push_cast
      linarith
    have hl2 : ‖specMoment 512 (pixelReal splitChannel.pixels) 1 1 - specMoment 512 (pixelReal noisy.pixels) 1 1‖ ≤ 2 / 3 * (13 / 2) :=
      hl.trans (mul_le_mul hq hm (div_nonneg (sum_nonneg fun _ _ => sum_nonneg fun _ _ => abs_nonneg _) (by norm_num)) (by norm_num))
    have hl3 := norm_sub_norm_le (specMoment 512 (pixelReal splitChannel.pixels) 1 1) (specMoment 512 (pixelReal noisy.pixels) 1 1)
    have := splitChannel_moment
    show 7 ≤ ‖specMoment 512 (pixelReal noisy.pixels) 1 1‖
    linarith
  · refine (meanDifference_le 512 (by norm_num) _ _).trans ?_
    rw [le_div_iff₀ (by norm_num)]
    have := Real.two_le_pi
    push_cast
    linarith

end Sia
