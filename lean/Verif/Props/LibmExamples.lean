import Verif.Props.ZernikeFloatProps
import Mathlib.Analysis.Complex.ExponentialBounds

/-! A mathematical library for double precision that meets the contract of C65–C67: exact function values rounded to nearest. -/
namespace Sia
open FloatOps LawfulFloat

/-- A rational number within `2^-255` of a real number. -/
noncomputable def nearQ (x : ℝ) : ℚ := (exists_rat_btwn (show x < x + 1 / 2 ^ 255 by have : (0 : ℝ) < 1 / 2 ^ 255 := by positivity
                                                                                     linarith)).choose

theorem nearQ_spec (x : ℝ) : |(nearQ x : ℝ) - x| ≤ 1 / 2 ^ 255 := by
  have h := (exists_rat_btwn (show x < x + 1 / 2 ^ 255 by have : (0 : ℝ) < 1 / 2 ^ 255 := by positivity
                                                          linarith)).choose_spec
  change x < (nearQ x : ℝ) ∧ (nearQ x : ℝ) < x + 1 / 2 ^ 255 at h
  rw [abs_le]
  constructor
  · have : (0 : ℝ) < 1 / 2 ^ 255 := by positivity
    linarith [h.1]
  · linarith [h.2]

/-- A real number rounded to double precision. -/
noncomputable def roundF64 (x : ℝ) : F64 := F64.ofRat (nearQ x)

theorem roundF64_spec (x : ℝ) (hx : |x| ≤ 2 ^ 150) : fin (roundF64 x) ∧ |val (roundF64 x) - x| ≤ ulp * (3 / 4 * |x| + omega) := by
  have hq := nearQ_spec x
  have hqa : |(nearQ x : ℝ)| ≤ |x| + 1 / 2 ^ 255 := by
    have := abs_add_le ((nearQ x : ℝ) - x) x
    rw [sub_add_cancel] at this
    linarith
  have hb : |(nearQ x : ℝ)| ≤ 2 ^ 200 := by
    refine hqa.trans ((add_le_add hx le_rfl).trans ?_)
    norm_num
  have hs := ofRat_spec (nearQ x) hb
  have e : roundF64 x = .fin (rne64 (nearQ x)) := hs.1
  rw [e]
  refine ⟨trivial, ?_⟩
  have h1 := abs_sub_le ((rne64 (nearQ x) : ℚ) : ℝ) (nearQ x : ℝ) x
  have h2 := hs.2
  show |((rne64 (nearQ x) : ℚ) : ℝ) - x| ≤ _
  have hu : (1 : ℝ) / 2 ^ 53 = ulp / 2 := by unfold ulp; norm_num
  rw [hu] at h2
  have ho : (1 : ℝ) / 2 ^ 255 ≤ 1 / 4 * ulp * omega := by unfold ulp omega; norm_num
  have hup := ulp_pos
  have hu1 : ulp ≤ 1 := by unfold ulp; norm_num
  have hop := omega_pos
  have h3 : ulp / 2 * (|(nearQ x : ℝ)| + omega) ≤ ulp / 2 * (|x| + 1 / 2 ^ 255 + omega) :=
    mul_le_mul_of_nonneg_left (by linarith) (by linarith)
  have h4 : ulp / 2 * (1 / 2 ^ 255) ≤ 1 / 2 * (1 / 2 ^ 255) := mul_le_mul_of_nonneg_right (by linarith) (by positivity)
  have h5 : 0 ≤ ulp * |x| := mul_nonneg hup.le (abs_nonneg x)
  have e1 : ulp / 2 * (|x| + 1 / 2 ^ 255 + omega) = ulp * |x| / 2 + ulp / 2 * (1 / 2 ^ 255) + 1 / 2 * ulp * omega := by ring
  have e2 : ulp * (3 / 4 * |x| + omega) = 3 / 4 * (ulp * |x|) + ulp * omega := by ring
  rw [e1] at h3
  rw [e2]
  linarith

theorem roundF64_rel (x : ℝ) (hx : |x| ≤ 2 ^ 150) (h1 : 1 / 4 ≤ |x|) : |val (roundF64 x) - x| ≤ ulp * |x| := by
  refine (roundF64_spec x hx).2.trans (mul_le_mul_of_nonneg_left ?_ ulp_pos.le)
  have : omega ≤ 1 / 16 := by unfold omega; norm_num
  linarith

theorem roundF64_one (x : ℝ) (hx : |x| ≤ 1) : fin (roundF64 x) ∧ |val (roundF64 x) - x| ≤ ulp := by
  have h := roundF64_spec x (hx.trans (by norm_num))
  refine ⟨h.1, h.2.trans ?_⟩
  have : omega ≤ 1 / 16 := by unfold omega; norm_num
  have h2 : ulp * (3 / 4 * |x| + omega) ≤ ulp * 1 := mul_le_mul_of_nonneg_left (by linarith) ulp_pos.le
  linarith

theorem roundF64_scale (x : ℝ) (hx : |x| ≤ 2 ^ 150) : fin (roundF64 x) ∧ |val (roundF64 x) - x| ≤ ulp * (|x| + omega) := by
  have h := roundF64_spec x hx
  exact ⟨h.1, h.2.trans (mul_le_mul_of_nonneg_left (by linarith [abs_nonneg x]) ulp_pos.le)⟩

/-- The library with exact values rounded to nearest. `powf` is only defined for exponents that are natural numbers. -/
noncomputable def idealLibm : Libm F64 where
  powf x y := roundF64 (val x ^ ⌊val y⌋₊)
  sqrt x := roundF64 (Real.sqrt (val x))
  atan2 y x := roundF64 (Complex.arg ⟨val x, val y⟩)
  hypot x y := roundF64 ‖(⟨val x, val y⟩ : ℂ)‖
  exp x := roundF64 (Real.exp (val x))
  cos x := roundF64 (Real.cos (val x))
  sin x := roundF64 (Real.sin (val x))
  gamma x := roundF64 (Real.Gamma (val x))

/-- C65: the contract of the library can be met. -/
theorem idealLibm_lawful : idealLibm.Lawful where
  powf x y k _ _ hk hb := by
    have e : idealLibm.powf x y = roundF64 (val x ^ k) := by
      show roundF64 (val x ^ ⌊val y⌋₊) = _
      rw [hk, Nat.floor_natCast]
    rw [e]
    have h := roundF64_scale (val x ^ k) (by rw [abs_pow]; exact hb.trans (by norm_num))
    rw [abs_pow] at h
    exact h
  sqrt x _ h0 hb := by
    have hs : Real.sqrt (val x) ≤ 2 ^ 100 := by
      rw [Real.sqrt_le_left (by positivity)]
      refine hb.trans ?_
      norm_num
    have h := roundF64_scale (Real.sqrt (val x)) (by
      rw [abs_of_nonneg (Real.sqrt_nonneg _)]; exact hs.trans (by norm_num))
    rw [abs_of_nonneg (Real.sqrt_nonneg _)] at h
    exact h
  atan2 y x _ _ _ := by
    have hpi := Real.pi_lt_d2
    have ha : |Complex.arg ⟨val x, val y⟩| ≤ 3.15 := (Complex.abs_arg_le_pi _).trans hpi.le
    have h := roundF64_scale (Complex.arg ⟨val x, val y⟩) (ha.trans (by norm_num))
    have ho : omega ≤ 1 / 16 := by unfold omega; norm_num
    have hu : ulp ≤ 1 / 16 := by unfold ulp; norm_num
    have h2 : ulp * (|Complex.arg ⟨val x, val y⟩| + omega) ≤ ulp * 4 := by
      apply mul_le_mul_of_nonneg_left _ ulp_pos.le
      norm_num at ha
      linarith
    refine ⟨h.1, ?_, 0, ?_⟩
    · have h3 := abs_add_le (val (roundF64 (Complex.arg ⟨val x, val y⟩)) - Complex.arg ⟨val x, val y⟩) (Complex.arg ⟨val x, val y⟩)
      rw [sub_add_cancel] at h3
      show |val (roundF64 (Complex.arg ⟨val x, val y⟩))| ≤ 4
      norm_num at ha
      linarith [h.2]
    · rw [Int.cast_zero, mul_zero, add_zero]
      exact h.2.trans h2
  hypot x y _ _ hx hy := by
    have hn : ‖(⟨val x, val y⟩ : ℂ)‖ ≤ 2 ^ 102 := by
      have h1 := Complex.norm_le_abs_re_add_abs_im (⟨val x, val y⟩ : ℂ)
      have h2 : (2 : ℝ) ^ 100 + 2 ^ 100 ≤ 2 ^ 102 := by norm_num
      dsimp only at h1
      linarith
    have h := roundF64_scale ‖(⟨val x, val y⟩ : ℂ)‖ (by rw [abs_of_nonneg (norm_nonneg _)]; exact hn.trans (by norm_num))
    rw [abs_of_nonneg (norm_nonneg _)] at h
    exact h
  exp x _ hx := by
    have hb := abs_le.mp hx
    have h1 : Real.exp (val x) ≤ 3 := (Real.exp_le_exp.mpr hb.2).trans (by have := Real.exp_one_lt_d9; linarith)
    have h2 : 1 / 4 ≤ Real.exp (val x) := by
      have h3 : Real.exp (-1) ≤ Real.exp (val x) := Real.exp_le_exp.mpr hb.1
      have h4 : Real.exp (-1) = 1 / Real.exp 1 := by rw [Real.exp_neg, one_div]
      have h5 := Real.exp_one_lt_d9
      have h6 : 1 / 4 ≤ 1 / Real.exp 1 := one_div_le_one_div_of_le (Real.exp_pos 1) (by linarith)
      linarith
    have hp := Real.exp_pos (val x)
    have ha : |Real.exp (val x)| ≤ 2 ^ 150 := by rw [abs_of_pos hp]; exact h1.trans (by norm_num)
    have h := roundF64_rel (Real.exp (val x)) ha (by rw [abs_of_pos hp]; exact h2)
    rw [abs_of_pos hp] at h
    exact ⟨(roundF64_spec _ ha).1, h⟩
  cos x _ _ := roundF64_one _ (Real.abs_cos_le_one _)
  sin x _ _ := roundF64_one _ (Real.abs_sin_le_one _)

/-- C65 on a concrete image and the library above: the feature of order 1 of a 2 x 2 image with one bright pixel (exactly
`(2/π)·9/4 = 1.432..`). -/
theorem cornerImage_feature_f64 : ∃ x : ℚ, zernikeFeaturesF idealLibm cornerImage 1 = .ok [.fin x] ∧
    |(x : ℝ) - 2 / Real.pi * 9 / 4| ≤ 1 / 400 := by
  obtain ⟨fs, es, h1, h2, h3⟩ := features_f64_vs_exact idealLibm idealLibm_lawful 2 1 cornerImage le_rfl (by norm_num) le_rfl (by norm_num) ⟨rfl, rfl⟩
  rw [cornerImage_feature] at h2
  cases h2
  cases h3 with
  | cons h h' =>
    cases h'
    obtain ⟨x, rfl, hx⟩ := h
    exact ⟨x, h1, hx⟩

/-- Two pixels, one above the other, the upper one bright. -/
def columnImage : Mat UInt8 := ⟨2, 1, fun i _ => if i = 0 then 9 else 0⟩

/-- C30 on a concrete picture that is not square: its feature of order 1 is twice that of `cornerImage`. -/
theorem columnImage_feature : calculateFeatures columnImage .MomentsZernike 1 = .ok [2 / Real.pi * 9 / 2] := by
  have h := cornerImage_feature
  rw [features_square 2 cornerImage 1 le_rfl le_rfl ⟨rfl, rfl⟩] at h
  have h' := Except.ok.inj h
  simp only [List.range_one, List.map_cons, List.map_nil, List.cons.injEq, and_true] at h'
  rw [features_packed 2 1 columnImage 1 le_rfl le_rfl le_rfl (by norm_num) rfl rfl]
  simp only [List.range_one, List.map_cons, List.map_nil]
  rw [specMoment_congr 2 _ (pixelReal cornerImage) _ _ ?_, h']
  · congr 2
    push_cast
    ring
  · intro i hi j hj
    interval_cases i <;> interval_cases j <;> simp [packed, pixelReal, columnImage, cornerImage]

/-- C65 on the same picture and the library above. -/
theorem columnImage_feature_f64 : ∃ x : ℚ, zernikeFeaturesF idealLibm columnImage 1 = .ok [.fin x] ∧
    |(x : ℝ) - 2 / Real.pi * 9 / 2| ≤ 1 / 400 := by
  obtain ⟨fs, es, h1, h2, h3⟩ := features_f64_landscape idealLibm idealLibm_lawful 1 columnImage le_rfl (by norm_num) le_rfl
    (by decide) (by decide) (by decide)
  rw [columnImage_feature] at h2
  cases h2
  cases h3 with
  | cons h h' =>
    cases h'
    obtain ⟨x, rfl, hx⟩ := h
    exact ⟨x, h1, hx⟩

/-- C65: a picture with more columns than rows. -/
example : ∃ e, zernikeFeaturesF idealLibm (⟨2, 3, fun i j => UInt8.ofNat (i + j)⟩ : Mat UInt8) 11 = .error e :=
  features_machine_abort _ _ 11 (Or.inr ⟨by norm_num, by norm_num⟩)

end Sia
