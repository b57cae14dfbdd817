import Verif.Props.FloatIeee
import Verif.Model.Equalize

/-! Rounding to binary32: nearest, monotone, exact on values with at most 24 bits. -/
namespace Sia

/-- A number with at most 24 significant bits, exponents unbounded above. -/
def OnGrid32 (y : ℚ) : Prop := ∃ m e : ℤ, |m| ≤ 2 ^ 24 ∧ -149 ≤ e ∧ y = m * 2 ^ e

theorem ulpExp32_ge (x : ℚ) : -149 ≤ ulpExp32 x := le_max_right _ _

theorem abs_lt_ulp32 (x : ℚ) : |x| < 2 ^ 24 * 2 ^ ulpExp32 x := by
  have h := Int.lt_zpow_succ_log_self (b := 2) (by norm_num) |x|
  push_cast at h
  refine h.trans_le ?_
  rw [show (2 : ℚ) ^ 24 * 2 ^ ulpExp32 x = 2 ^ (24 + ulpExp32 x) by rw [zpow_add₀ (by norm_num)]; norm_num]
  apply zpow_le_zpow_right₀ (by norm_num)
  unfold ulpExp32
  omega

theorem ulp32_le_abs (x : ℚ) (hx : x ≠ 0) (h : ulpExp32 x ≠ -149) : 2 ^ 23 * 2 ^ ulpExp32 x ≤ |x| := by
  have hl := Int.zpow_log_le_self (b := 2) (by norm_num) (abs_pos.mpr hx)
  push_cast at hl
  refine le_trans (le_of_eq ?_) hl
  have : ulpExp32 x = Int.log 2 |x| - 23 := by unfold ulpExp32 at h ⊢; omega
  rw [this, zpow_sub₀ (by norm_num)]
  field_simp

theorem rne32_eq (x : ℚ) (hx : x ≠ 0) : rne32 x = (rneInt (x / 2 ^ ulpExp32 x) : ℚ) * 2 ^ ulpExp32 x := by
  unfold rne32; rw [if_neg hx]

theorem scaled_dist32 (x : ℚ) (k : ℤ) : |(k : ℚ) * 2 ^ ulpExp32 x - x| = |(k : ℚ) - x / 2 ^ ulpExp32 x| * 2 ^ ulpExp32 x := by
  have hp := two_zpow_pos (ulpExp32 x)
  rw [← abs_of_pos hp, ← abs_mul, abs_of_pos hp]
  congr 1
  field_simp

/-- A number with at most 24 bits whose unit is finer than that of `x` is smaller than `x` and farther from `x` than the rounding. -/
theorem finer_farther32 (x : ℚ) (hx : x ≠ 0) (m f : ℤ) (hm : |m| < 2 ^ 24) (hf : -149 ≤ f) (hlt : f < ulpExp32 x) :
    |rne32 x - x| < |(m : ℚ) * 2 ^ f - x| := by
  set e := ulpExp32 x with he
  have hne : ulpExp32 x ≠ -149 := by omega
  have h1 := ulp32_le_abs x hx hne
  rw [← he] at h1
  have hp := two_zpow_pos e
  have hy : |(m : ℚ) * 2 ^ f| < 2 ^ 23 * 2 ^ e := by
    rw [abs_mul, abs_of_pos (two_zpow_pos f)]
    have hm' : |(m : ℚ)| < 2 ^ 24 := by exact_mod_cast hm
    calc |(m : ℚ)| * 2 ^ f < 2 ^ 24 * 2 ^ f := mul_lt_mul_of_pos_right hm' (two_zpow_pos f)
      _ ≤ 2 ^ 24 * 2 ^ (e - 1) := mul_le_mul_of_nonneg_left (zpow_le_zpow_right₀ (by norm_num) (by omega)) (by norm_num)
      _ = 2 ^ 23 * 2 ^ e := by rw [zpow_sub₀ (by norm_num)]; norm_num; ring
  -- the power of two between them
  obtain ⟨s, hs1, hs2⟩ : ∃ s : ℤ, |(s : ℚ) * 2 ^ e - x| = |x| - 2 ^ 23 * 2 ^ e ∧ True := by
    rcases lt_or_gt_of_ne hx with hneg | hpos
    · refine ⟨-2 ^ 23, ?_, trivial⟩
      rw [abs_of_neg hneg] at h1 ⊢
      push_cast
      rw [abs_of_nonneg (by linarith)]
      ring
    · refine ⟨2 ^ 23, ?_, trivial⟩
      rw [abs_of_pos hpos] at h1 ⊢
      push_cast
      rw [abs_sub_comm, abs_of_nonneg (by linarith)]
      norm_num
  have h2 : |rne32 x - x| ≤ |(s : ℚ) * 2 ^ e - x| := by
    rw [rne32_eq x hx, ← he, scaled_dist32, scaled_dist32]
    exact mul_le_mul_of_nonneg_right (rneInt_nearest _ _) hp.le
  have h3 := abs_sub_abs_le_abs_sub x ((m : ℚ) * 2 ^ f)
  rw [abs_sub_comm x] at h3
  linarith

theorem onGrid32_strict {y : ℚ} (h : OnGrid32 y) : ∃ m e : ℤ, |m| < 2 ^ 24 ∧ -149 ≤ e ∧ y = m * 2 ^ e := by
  obtain ⟨m, e, hm, he, rfl⟩ := h
  rcases lt_or_eq_of_le hm with hlt | heq
  · exact ⟨m, e, hlt, he, rfl⟩
  · rcases abs_eq (by norm_num) |>.mp heq with rfl | rfl
    · refine ⟨2 ^ 23, e + 1, by norm_num, by omega, ?_⟩
      rw [zpow_add₀ (by norm_num)]; push_cast; ring
    · refine ⟨-2 ^ 23, e + 1, by norm_num, by omega, ?_⟩
      rw [zpow_add₀ (by norm_num)]; push_cast; ring

/-- Rounding goes to a nearest number with at most 24 significant bits. -/
theorem rne32_nearest (x y : ℚ) (hy : OnGrid32 y) : |rne32 x - x| ≤ |y - x| := by
  by_cases hx : x = 0
  · subst hx; simp [rne32]
  obtain ⟨m, f, hm, hf, rfl⟩ := onGrid32_strict hy
  rcases lt_or_ge f (ulpExp32 x) with hlt | hge
  · exact (finer_farther32 x hx m f hm hf hlt).le
  · obtain ⟨j, hj⟩ := grid_rescale m f _ hge
    rw [hj, rne32_eq x hx, scaled_dist32, scaled_dist32]
    exact mul_le_mul_of_nonneg_right (rneInt_nearest _ _) (two_zpow_pos _).le

theorem scaled_abs_lt32 (x : ℚ) : |x / 2 ^ ulpExp32 x| < 2 ^ 24 := by
  rw [abs_div, abs_of_pos (two_zpow_pos _), div_lt_iff₀ (two_zpow_pos _)]
  exact abs_lt_ulp32 x

theorem rne32_onGrid32 (x : ℚ) : OnGrid32 (rne32 x) := by
  by_cases hx : x = 0
  · exact ⟨0, 0, by norm_num, by norm_num, by subst hx; simp [rne32]⟩
  refine ⟨_, _, ?_, ulpExp32_ge x, rne32_eq x hx⟩
  exact rneInt_abs_le _ _ (by push_cast; exact (scaled_abs_lt32 x).le)

/-- Rounding a number with at most 24 significant bits does not change it. -/
theorem rne32_self (y : ℚ) (hy : OnGrid32 y) : rne32 y = y := by
  have h := rne32_nearest y y hy
  rw [sub_self, abs_zero] at h
  have := abs_nonneg (rne32 y - y)
  have h2 : |rne32 y - y| = 0 := le_antisymm h this
  linarith [abs_eq_zero.mp h2]

/-- Rounding is monotone. -/
theorem rne32_mono {x x' : ℚ} (h : x ≤ x') : rne32 x ≤ rne32 x' := by
  by_contra hc
  push Not at hc
  have h1 := rne32_nearest x _ (rne32_onGrid32 x')
  have h2 := rne32_nearest x' _ (rne32_onGrid32 x)
  have e : x = x' := by
    apply le_antisymm h
    -- x is not below and x' not above the midpoint
    have m1 : rne32 x + rne32 x' ≤ 2 * x := by
      by_contra hm
      push Not at hm
      have : |rne32 x' - x| < |rne32 x - x| := by
        rw [abs_of_pos (by linarith : 0 < rne32 x - x), abs_lt]
        constructor <;> linarith
      linarith
    have m2 : 2 * x' ≤ rne32 x + rne32 x' := by
      by_contra hm
      push Not at hm
      have : |rne32 x - x'| < |rne32 x' - x'| := by
        rw [abs_of_neg (by linarith : rne32 x' - x' < 0), abs_lt]
        constructor <;> linarith
      linarith
    linarith
  rw [e] at hc
  exact lt_irrefl _ hc

theorem rne32_err (x : ℚ) : |rne32 x - x| ≤ 1 / 2 ^ 24 * |x| ∨ |rne32 x - x| ≤ 1 / 2 ^ 150 := by
  by_cases h0 : x = 0
  · left; subst h0; simp [rne32]
  have hx : 0 < |x| := abs_pos.mpr h0
  have hp := two_zpow_pos (ulpExp32 x)
  have hE : |rne32 x - x| ≤ 1 / 2 * 2 ^ ulpExp32 x := by
    rw [rne32_eq x h0, scaled_dist32]
    exact mul_le_mul_of_nonneg_right (rneInt_err _) hp.le
  by_cases hc : ulpExp32 x = -149
  · right
    rw [hc] at hE
    refine le_trans hE (le_of_eq ?_)
    rw [show (-149 : ℤ) = -((149 : ℕ) : ℤ) by norm_num, zpow_neg, zpow_natCast]
    rw [one_div, one_div, ← mul_inv, ← pow_succ']
  · left
    have h2 := ulp32_le_abs x h0 hc
    have : (1 : ℚ) / 2 * 2 ^ ulpExp32 x = 1 / 2 ^ 24 * (2 ^ 23 * 2 ^ ulpExp32 x) := by ring
    rw [this] at hE
    exact hE.trans (mul_le_mul_of_nonneg_left h2 (by positivity))

/-- Whole numbers up to `2^24` are exact. -/
theorem rne32_nat (n : Nat) (h : n ≤ 2 ^ 24) : rne32 n = n :=
  rne32_self _ ⟨n, 0, by rw [abs_of_nonneg (by positivity)]; exact_mod_cast h, by norm_num, by simp⟩

theorem rne32_nonneg (x : ℚ) (h : 0 ≤ x) : 0 ≤ rne32 x := by
  have := rne32_mono h
  rwa [show rne32 0 = 0 by unfold rne32; simp] at this

/-- Relative error, for numbers that are not tiny. -/
theorem rne32_rel (x : ℚ) (h : 1 / 2 ^ 100 ≤ |x|) : |rne32 x - x| ≤ 1 / 2 ^ 24 * |x| := by
  rcases rne32_err x with h1 | h1
  · exact h1
  · refine h1.trans (le_trans ?_ (mul_le_mul_of_nonneg_left h (by norm_num)))
    norm_num

end Sia
