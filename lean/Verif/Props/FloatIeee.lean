import Verif.Spec.BinarySpec
import Verif.Lemmas.FloatInstances
import Verif.Lemmas.FloatSign

/-! The rounding of the model is the rounding of IEEE 754: to the nearest binary64 value, halves to the even one, overflow to
infinity beyond the largest value by half a unit; and no operation leaves the set of binary64 values. -/
namespace Sia

theorem rneInt_nearest (t : ℚ) (j : ℤ) : |(rneInt t : ℚ) - t| ≤ |(j : ℚ) - t| := by
  have h1 := Int.floor_le t
  have h2 := Int.lt_floor_add_one t
  rcases le_or_gt j ⌊t⌋ with hj | hj
  · have hj' : (j : ℚ) ≤ (⌊t⌋ : ℚ) := by exact_mod_cast hj
    rw [abs_sub_comm (j : ℚ), abs_of_nonneg (by linarith : (0 : ℚ) ≤ t - j)]
    unfold rneInt
    dsimp only
    split_ifs <;> rw [abs_le] <;> push_cast <;> constructor <;> linarith
  · have hj' : (⌊t⌋ : ℚ) + 1 ≤ (j : ℚ) := by exact_mod_cast hj
    rw [abs_of_nonneg (by linarith : (0 : ℚ) ≤ j - t)]
    unfold rneInt
    dsimp only
    split_ifs <;> rw [abs_le] <;> push_cast <;> constructor <;> linarith

theorem rneInt_tie (t : ℚ) (j : ℤ) (hj : j ≠ rneInt t) (h : |(rneInt t : ℚ) - t| = |(j : ℚ) - t|) : Even (rneInt t) := by
  have h1 := Int.floor_le t
  have h2 := Int.lt_floor_add_one t
  have hjc : j ≤ ⌊t⌋ - 1 ∨ j = ⌊t⌋ ∨ j = ⌊t⌋ + 1 ∨ ⌊t⌋ + 2 ≤ j := by omega
  have key : t - ⌊t⌋ = 1 / 2 := by
    unfold rneInt at h hj
    dsimp only at h hj
    have ha : |((⌊t⌋ : ℤ) : ℚ) - t| = t - ⌊t⌋ := by rw [abs_sub_comm, abs_of_nonneg (by linarith)]
    have hb : |((⌊t⌋ + 1 : ℤ) : ℚ) - t| = ⌊t⌋ + 1 - t := by push_cast; rw [abs_of_nonneg (by linarith)]
    rcases hjc with hc | rfl | rfl | hc
    · have hc' : (j : ℚ) ≤ (⌊t⌋ : ℚ) - 1 := by exact_mod_cast hc
      rw [abs_sub_comm (j : ℚ), abs_of_nonneg (by linarith : (0 : ℚ) ≤ t - j)] at h
      split_ifs at h with c1 c2 c3
      · rw [ha] at h; linarith
      · rw [hb] at h; linarith
      · rw [ha] at h; linarith
      · rw [hb] at h; linarith
    · split_ifs at h hj with c1 c2 c3
      · exact absurd rfl hj
      · rw [ha, hb] at h; linarith
      · exact absurd rfl hj
      · rw [ha, hb] at h; linarith
    · split_ifs at h hj with c1 c2 c3
      · rw [ha, hb] at h; linarith
      · exact absurd rfl hj
      · rw [ha, hb] at h; linarith
      · exact absurd rfl hj
    · have hc' : (⌊t⌋ : ℚ) + 2 ≤ (j : ℚ) := by exact_mod_cast hc
      rw [abs_of_nonneg (by linarith : (0 : ℚ) ≤ j - t)] at h
      split_ifs at h with c1 c2 c3
      · rw [ha] at h; linarith
      · rw [hb] at h; linarith
      · rw [ha] at h; linarith
      · rw [hb] at h; linarith
  unfold rneInt
  dsimp only
  rw [if_neg (by linarith), if_neg (by linarith)]
  split_ifs with he
  · exact Int.even_iff.mpr he
  · rw [Int.even_iff]; omega

/-- A number with at most 53 significant bits, exponents unbounded above. -/
def OnGrid (y : ℚ) : Prop := ∃ m e : ℤ, |m| ≤ 2 ^ 53 ∧ -1074 ≤ e ∧ y = m * 2 ^ e

theorem two_zpow_pos (e : ℤ) : (0 : ℚ) < 2 ^ e := zpow_pos (by norm_num) _

theorem ulpExp_ge (x : ℚ) : -1074 ≤ ulpExp x := le_max_right _ _

theorem abs_lt_ulp (x : ℚ) : |x| < 2 ^ 53 * 2 ^ ulpExp x := by
  have h := Int.lt_zpow_succ_log_self (b := 2) (by norm_num) |x|
  push_cast at h
  refine h.trans_le ?_
  rw [show (2 : ℚ) ^ 53 * 2 ^ ulpExp x = 2 ^ (53 + ulpExp x) by rw [zpow_add₀ (by norm_num)]; norm_num]
  apply zpow_le_zpow_right₀ (by norm_num)
  unfold ulpExp
  omega

theorem ulp_le_abs (x : ℚ) (hx : x ≠ 0) (h : ulpExp x ≠ -1074) : 2 ^ 52 * 2 ^ ulpExp x ≤ |x| := by
  have hl := Int.zpow_log_le_self (b := 2) (by norm_num) (abs_pos.mpr hx)
  push_cast at hl
  refine le_trans (le_of_eq ?_) hl
  have : ulpExp x = Int.log 2 |x| - 52 := by unfold ulpExp at h ⊢; omega
  rw [this, zpow_sub₀ (by norm_num)]
  field_simp

theorem rne64_eq (x : ℚ) (hx : x ≠ 0) : rne64 x = (rneInt (x / 2 ^ ulpExp x) : ℚ) * 2 ^ ulpExp x := by
  unfold rne64; rw [if_neg hx]

theorem scaled_dist (x : ℚ) (k : ℤ) : |(k : ℚ) * 2 ^ ulpExp x - x| = |(k : ℚ) - x / 2 ^ ulpExp x| * 2 ^ ulpExp x := by
  have hp := two_zpow_pos (ulpExp x)
  rw [← abs_of_pos hp, ← abs_mul, abs_of_pos hp]
  congr 1
  field_simp

theorem grid_rescale (m e f : ℤ) (h : f ≤ e) : ∃ j : ℤ, (m : ℚ) * 2 ^ e = j * 2 ^ f := by
  obtain ⟨d, hd⟩ := Int.le.dest h
  refine ⟨m * 2 ^ d, ?_⟩
  rw [← hd, zpow_add₀ (by norm_num), zpow_natCast]
  push_cast
  ring

/-- A number with at most 53 bits whose unit is finer than that of `x` is smaller than `x` and farther from `x` than the rounding. -/
theorem finer_farther (x : ℚ) (hx : x ≠ 0) (m f : ℤ) (hm : |m| < 2 ^ 53) (hf : -1074 ≤ f) (hlt : f < ulpExp x) :
    |rne64 x - x| < |(m : ℚ) * 2 ^ f - x| := by
  set e := ulpExp x with he
  have hne : ulpExp x ≠ -1074 := by omega
  have h1 := ulp_le_abs x hx hne
  rw [← he] at h1
  have hp := two_zpow_pos e
  have hy : |(m : ℚ) * 2 ^ f| < 2 ^ 52 * 2 ^ e := by
    rw [abs_mul, abs_of_pos (two_zpow_pos f)]
    have hm' : |(m : ℚ)| < 2 ^ 53 := by exact_mod_cast hm
    calc |(m : ℚ)| * 2 ^ f < 2 ^ 53 * 2 ^ f := mul_lt_mul_of_pos_right hm' (two_zpow_pos f)
      _ ≤ 2 ^ 53 * 2 ^ (e - 1) := mul_le_mul_of_nonneg_left (zpow_le_zpow_right₀ (by norm_num) (by omega)) (by norm_num)
      _ = 2 ^ 52 * 2 ^ e := by rw [zpow_sub₀ (by norm_num)]; norm_num; ring
  -- the power of two between them
  obtain ⟨s, hs1, hs2⟩ : ∃ s : ℤ, |(s : ℚ) * 2 ^ e - x| = |x| - 2 ^ 52 * 2 ^ e ∧ True := by
    rcases lt_or_gt_of_ne hx with hneg | hpos
    · refine ⟨-2 ^ 52, ?_, trivial⟩
      rw [abs_of_neg hneg] at h1 ⊢
      push_cast
      rw [abs_of_nonneg (by linarith)]
      ring
    · refine ⟨2 ^ 52, ?_, trivial⟩
      rw [abs_of_pos hpos] at h1 ⊢
      push_cast
      rw [abs_sub_comm, abs_of_nonneg (by linarith)]
      norm_num
  have h2 : |rne64 x - x| ≤ |(s : ℚ) * 2 ^ e - x| := by
    rw [rne64_eq x hx, ← he, scaled_dist, scaled_dist]
    exact mul_le_mul_of_nonneg_right (rneInt_nearest _ _) hp.le
  have h3 := abs_sub_abs_le_abs_sub x ((m : ℚ) * 2 ^ f)
  rw [abs_sub_comm x] at h3
  linarith

theorem onGrid_strict {y : ℚ} (h : OnGrid y) : ∃ m e : ℤ, |m| < 2 ^ 53 ∧ -1074 ≤ e ∧ y = m * 2 ^ e := by
  obtain ⟨m, e, hm, he, rfl⟩ := h
  rcases lt_or_eq_of_le hm with hlt | heq
  · exact ⟨m, e, hlt, he, rfl⟩
  · rcases abs_eq (by norm_num) |>.mp heq with rfl | rfl
    · refine ⟨2 ^ 52, e + 1, by norm_num, by omega, ?_⟩
      rw [zpow_add₀ (by norm_num)]; push_cast; ring
    · refine ⟨-2 ^ 52, e + 1, by norm_num, by omega, ?_⟩
      rw [zpow_add₀ (by norm_num)]; push_cast; ring

/-- Rounding goes to a nearest number with at most 53 significant bits. -/
theorem rne64_nearest (x y : ℚ) (hy : OnGrid y) : |rne64 x - x| ≤ |y - x| := by
  by_cases hx : x = 0
  · subst hx; simp [rne64]
  obtain ⟨m, f, hm, hf, rfl⟩ := onGrid_strict hy
  rcases lt_or_ge f (ulpExp x) with hlt | hge
  · exact (finer_farther x hx m f hm hf hlt).le
  · obtain ⟨j, hj⟩ := grid_rescale m f _ hge
    rw [hj, rne64_eq x hx, scaled_dist, scaled_dist]
    exact mul_le_mul_of_nonneg_right (rneInt_nearest _ _) (two_zpow_pos _).le

theorem rneInt_abs_le (t : ℚ) (n : ℤ) (h : |t| ≤ n) : |rneInt t| ≤ n := by
  have h1 := rneInt_nearest t n
  have h2 := rneInt_nearest t (-n)
  obtain ⟨h3, h4⟩ := abs_le.mp h
  push_cast at h2
  rw [abs_of_nonneg (by linarith : (0 : ℚ) ≤ n - t)] at h1
  rw [abs_of_nonpos (by linarith : -(n : ℚ) - t ≤ 0)] at h2
  obtain ⟨_, h5⟩ := abs_le.mp h1
  obtain ⟨h6, _⟩ := abs_le.mp h2
  rw [abs_le]
  constructor
  · have : -(n : ℚ) ≤ rneInt t := by linarith
    exact_mod_cast this
  · have : (rneInt t : ℚ) ≤ n := by linarith
    exact_mod_cast this

theorem rneInt_abs_ge (t : ℚ) (n : ℤ) (h : (n : ℚ) ≤ |t|) : n ≤ |rneInt t| := by
  rcases le_total 0 t with h0 | h0
  · rw [abs_of_nonneg h0] at h
    have h1 := rneInt_nearest t n
    rw [abs_sub_comm (n : ℚ), abs_of_nonneg (by linarith : (0 : ℚ) ≤ t - n)] at h1
    have := (abs_le.mp h1).1
    have : (n : ℚ) ≤ rneInt t := by linarith
    exact le_trans (by exact_mod_cast this) (le_abs_self _)
  · rw [abs_of_nonpos h0] at h
    have h1 := rneInt_nearest t (-n)
    push_cast at h1
    rw [abs_of_nonneg (by linarith : (0 : ℚ) ≤ -n - t)] at h1
    have := (abs_le.mp h1).2
    have : (n : ℚ) ≤ -rneInt t := by linarith
    exact le_trans (by exact_mod_cast this) (neg_le_abs _)

theorem scaled_abs_lt (x : ℚ) : |x / 2 ^ ulpExp x| < 2 ^ 53 := by
  rw [abs_div, abs_of_pos (two_zpow_pos _), div_lt_iff₀ (two_zpow_pos _)]
  exact abs_lt_ulp x

theorem rne64_onGrid (x : ℚ) : OnGrid (rne64 x) := by
  by_cases hx : x = 0
  · exact ⟨0, 0, by norm_num, by norm_num, by subst hx; simp [rne64]⟩
  refine ⟨_, _, ?_, ulpExp_ge x, rne64_eq x hx⟩
  exact rneInt_abs_le _ _ (by push_cast; exact (scaled_abs_lt x).le)

/-- Rounding a number with at most 53 significant bits does not change it. -/
theorem rne64_self (y : ℚ) (hy : OnGrid y) : rne64 y = y := by
  have h := rne64_nearest y y hy
  rw [sub_self, abs_zero] at h
  have := abs_nonneg (rne64 y - y)
  have h2 : |rne64 y - y| = 0 := le_antisymm h this
  linarith [abs_eq_zero.mp h2]

/-- Rounding is monotone. -/
theorem rne64_mono {x x' : ℚ} (h : x ≤ x') : rne64 x ≤ rne64 x' := by
  by_contra hc
  push Not at hc
  have h1 := rne64_nearest x _ (rne64_onGrid x')
  have h2 := rne64_nearest x' _ (rne64_onGrid x)
  have e : x = x' := by
    apply le_antisymm h
    -- x is not below and x' not above the midpoint
    have m1 : rne64 x + rne64 x' ≤ 2 * x := by
      by_contra hm
      push Not at hm
      have : |rne64 x' - x| < |rne64 x - x| := by
        rw [abs_of_pos (by linarith : 0 < rne64 x - x), abs_lt]
        constructor <;> linarith
      linarith
    have m2 : 2 * x' ≤ rne64 x + rne64 x' := by
      by_contra hm
      push Not at hm
      have : |rne64 x - x'| < |rne64 x' - x'| := by
        rw [abs_of_neg (by linarith : rne64 x' - x' < 0), abs_lt]
        constructor <;> linarith
      linarith
    linarith
  rw [e] at hc
  exact lt_irrefl _ hc

theorem rne64_canonical (x : ℚ) (hx : x ≠ 0) (h : |rne64 x| < 2 ^ 1024) :
    ∃ m e : ℤ, (Even (rneInt (x / 2 ^ ulpExp x)) → Even m) ∧ |m| < 2 ^ 53 ∧ -1074 ≤ e ∧ e ≤ 971 ∧ (2 ^ 52 ≤ |m| ∨ e = -1074) ∧
      rne64 x = m * 2 ^ e := by
  have hr := rne64_eq x hx
  set k := rneInt (x / 2 ^ ulpExp x) with hk
  set e := ulpExp x with he
  have hk53 : |k| ≤ 2 ^ 53 := rneInt_abs_le _ _ (by push_cast; exact (scaled_abs_lt x).le)
  have hk52 : 2 ^ 52 ≤ |k| ∨ e = -1074 := by
    by_cases h74 : e = -1074
    · exact Or.inr h74
    · left
      apply rneInt_abs_ge
      rw [abs_div, abs_of_pos (two_zpow_pos _), le_div_iff₀ (two_zpow_pos _)]
      push_cast
      exact ulp_le_abs x hx h74
  have hbig : 2 ^ 52 ≤ |k| → e ≤ 971 := by
    intro h52
    have h52' : (2 : ℚ) ^ 52 ≤ |(k : ℚ)| := by exact_mod_cast h52
    rw [hr, abs_mul, abs_of_pos (two_zpow_pos _)] at h
    have h1 : (2 : ℚ) ^ (52 + e) < 2 ^ (1024 : ℤ) := by
      rw [zpow_add₀ (by norm_num)]
      refine lt_of_le_of_lt (mul_le_mul_of_nonneg_right ?_ (two_zpow_pos e).le) (lt_of_lt_of_eq h ?_)
      · exact_mod_cast h52'
      · exact_mod_cast (zpow_natCast (2 : ℚ) 1024).symm
    have := (zpow_lt_zpow_iff_right₀ (by norm_num : (1 : ℚ) < 2)).mp h1
    omega
  rcases lt_or_eq_of_le hk53 with hlt | heq
  · refine ⟨k, e, id, hlt, ulpExp_ge x, ?_, hk52, hr⟩
    rcases hk52 with h1 | h1
    · exact hbig h1
    · omega
  · have he2 : e + 1 ≤ 971 := by
      have h53' : |(k : ℚ)| = 2 ^ 53 := by exact_mod_cast heq
      rw [hr, abs_mul, abs_of_pos (two_zpow_pos _), h53'] at h
      have h1 : (2 : ℚ) ^ (53 + e) < 2 ^ (1024 : ℤ) := by
        rw [zpow_add₀ (by norm_num)]
        refine lt_of_le_of_lt (le_of_eq ?_) (lt_of_lt_of_eq h ?_)
        · norm_num
        · exact_mod_cast (zpow_natCast (2 : ℚ) 1024).symm
      have := (zpow_lt_zpow_iff_right₀ (by norm_num : (1 : ℚ) < 2)).mp h1
      omega
    have hge := ulpExp_ge x
    rcases abs_eq (by norm_num) |>.mp heq with h1 | h1
    · refine ⟨2 ^ 52, e + 1, fun _ => ⟨2 ^ 51, by norm_num⟩, by norm_num, by omega, he2, Or.inl (by norm_num), ?_⟩
      rw [hr, h1, zpow_add₀ (by norm_num)]; push_cast; ring
    · refine ⟨-2 ^ 52, e + 1, fun _ => ⟨-2 ^ 51, by norm_num⟩, by norm_num, by omega, he2, Or.inl (by norm_num), ?_⟩
      rw [hr, h1, zpow_add₀ (by norm_num)]; push_cast; ring

theorem IsDouble.onGrid {y : ℚ} (h : IsDouble y) : OnGrid y := by
  obtain ⟨m, e, h1, h2, _, h4⟩ := h
  exact ⟨m, e, h1.le, h2, h4⟩

theorem ofRat_fin_inv {x r : ℚ} (h : F64.ofRat x = .fin r) : r = rne64 x ∧ |rne64 x| < 2 ^ 1024 := by
  unfold F64.ofRat at h
  dsimp only at h
  split_ifs at h with hc
  cases h
  exact ⟨rfl, not_le.mp hc⟩

/-- Rounded results are binary64 values. -/
theorem f64_result_is_double (x r : ℚ) (h : F64.ofRat x = .fin r) : IsDouble r := by
  obtain ⟨rfl, hlt⟩ := ofRat_fin_inv h
  by_cases hx : x = 0
  · subst hx
    exact ⟨0, 0, by norm_num, by norm_num, by norm_num, by simp [rne64]⟩
  · obtain ⟨m, e, _, h1, h2, h3, _, h5⟩ := rne64_canonical x hx hlt
    exact ⟨m, e, h1, h2, h3, h5⟩

/-- No binary64 value is nearer to the exact result than the rounded one. -/
theorem f64_nearest (x r : ℚ) (h : F64.ofRat x = .fin r) (y : ℚ) (hy : IsDouble y) : |r - x| ≤ |y - x| := by
  obtain ⟨rfl, _⟩ := ofRat_fin_inv h
  exact rne64_nearest x y hy.onGrid

/-- If two binary64 values are equally near, the result is the one with the even significand. -/
theorem f64_ties_to_even (x r : ℚ) (h : F64.ofRat x = .fin r) (y : ℚ) (hy : IsDouble y) (hne : y ≠ r) (heq : |r - x| = |y - x|) :
    IsEvenDouble r := by
  obtain ⟨rfl, hlt⟩ := ofRat_fin_inv h
  have hx : x ≠ 0 := by
    rintro rfl
    rw [rne64_zero] at heq hne
    rw [sub_zero, sub_zero, abs_zero] at heq
    exact hne (abs_eq_zero.mp heq.symm)
  have heven : Even (rneInt (x / 2 ^ ulpExp x)) := by
    obtain ⟨m, f, hm, hf, _, rfl⟩ := hy
    rcases lt_or_ge f (ulpExp x) with hlt' | hge
    · have := finer_farther x hx m f hm hf hlt'
      linarith
    · obtain ⟨j, hj⟩ := grid_rescale m f _ hge
      rw [hj, rne64_eq x hx] at heq hne
      rw [scaled_dist, scaled_dist] at heq
      refine rneInt_tie _ j ?_ (mul_right_cancel₀ (two_zpow_pos (ulpExp x)).ne' heq)
      rintro rfl
      exact hne rfl
  obtain ⟨m, e, h0, h1, h2, h3, h4, h5⟩ := rne64_canonical x hx hlt
  exact ⟨m, e, h0 heven, h1, h2, h3, h4, h5⟩

theorem rneInt_top (t : ℚ) (n : ℤ) (hn : n % 2 = 0) (h : (n : ℚ) - 1 / 2 ≤ t) : n ≤ rneInt t := by
  have h1 := Int.floor_le t
  have h2 := Int.lt_floor_add_one t
  have hf : n - 1 ≤ ⌊t⌋ := by
    rw [Int.le_floor]; push_cast; linarith
  unfold rneInt
  dsimp only
  split_ifs with c1 c2 c3
  · by_contra hc
    have : ⌊t⌋ = n - 1 := by omega
    rw [this] at c1
    push_cast at c1
    linarith
  · omega
  · omega
  · omega

theorem rneInt_below (t : ℚ) (n : ℤ) (h : t < (n : ℚ) - 1 / 2) : rneInt t ≤ n - 1 := by
  have h1 := Int.floor_le t
  have hf : ⌊t⌋ < n := by rw [Int.floor_lt]; linarith
  unfold rneInt
  dsimp only
  split_ifs with c1 c2 c3
  · omega
  all_goals
    by_contra hc
    have : ⌊t⌋ = n - 1 := by omega
    rw [this] at c1
    push_cast at c1
    linarith

theorem rne64_overflow_aux (x A B C P : ℚ) (hx : 0 ≤ x) (hP : 0 < P) (eA : A = 2 ^ 53 * P) (eB : B = 1 / 2 * P) (eC : C = 2 ^ 52 * P)
    (hA : rne64 A = A) (hC : rne64 C = C) (hexp : C ≤ x → x < A → rne64 x = (rneInt (x / P) : ℚ) * P) : A ≤ rne64 x ↔ A - B ≤ x := by
  rcases le_or_gt A x with h1 | h1
  · have h2 := rne64_mono h1
    rw [hA] at h2
    exact ⟨fun _ => by linarith, fun _ => h2⟩
  · rcases lt_or_ge x C with h3 | h3
    · have h2 := rne64_mono h3.le
      rw [hC] at h2
      constructor
      · intro h; linarith
      · intro h; linarith
    · rw [hexp h3 h1, eA, eB]
      constructor
      · intro h
        have h' := le_of_mul_le_mul_right h hP
        have h'' : (2 : ℤ) ^ 53 ≤ rneInt (x / P) := by exact_mod_cast h'
        by_contra hc
        push Not at hc
        have : x / P < ((2 ^ 53 : ℤ) : ℚ) - 1 / 2 := by
          rw [div_lt_iff₀ hP]
          push_cast
          linarith
        have := rneInt_below _ _ this
        omega
      · intro h
        apply mul_le_mul_of_nonneg_right _ hP.le
        have : ((2 ^ 53 : ℤ) : ℚ) - 1 / 2 ≤ x / P := by
          rw [le_div_iff₀ hP]
          push_cast
          linarith
        have := rneInt_top _ _ (by norm_num) this
        exact_mod_cast this

theorem rne64_overflow (x : ℚ) (hx : 0 ≤ x) : 2 ^ 1024 ≤ rne64 x ↔ 2 ^ 1024 - 2 ^ 970 ≤ x := by
  have e1024 : (2 : ℚ) ^ 1024 = 2 ^ 53 * 2 ^ (971 : ℤ) := by
    rw [show (971 : ℤ) = ((971 : ℕ) : ℤ) by norm_num, zpow_natCast, ← pow_add]
  have e970 : (2 : ℚ) ^ 970 = 1 / 2 * 2 ^ (971 : ℤ) := by
    have : (2 : ℚ) ^ 970 * 2 = 2 ^ (971 : ℤ) := by
      rw [show (971 : ℤ) = ((971 : ℕ) : ℤ) by norm_num, zpow_natCast]
      exact (pow_succ 2 970).symm
    rw [← this]
    exact (by intro y; ring : ∀ y : ℚ, y = 1 / 2 * (y * 2)) _
  have e1023 : (2 : ℚ) ^ 1023 = 2 ^ 52 * 2 ^ (971 : ℤ) := by
    rw [show (971 : ℤ) = ((971 : ℕ) : ℤ) by norm_num, zpow_natCast, ← pow_add]
  have hg1024 : OnGrid (2 ^ 1024) := ⟨2 ^ 53, 971, by norm_num, by norm_num, by rw [e1024]; push_cast; rfl⟩
  have hg1023 : OnGrid (2 ^ 1023) := ⟨2 ^ 52, 971, by norm_num, by norm_num, by rw [e1023]; push_cast; rfl⟩
  refine rne64_overflow_aux x _ _ (2 ^ 1023) (2 ^ (971 : ℤ)) hx (two_zpow_pos 971) e1024 e970 e1023 (rne64_self _ hg1024) (rne64_self _ hg1023) ?_
  intro h3 h1
  have hx0 : 0 < x := lt_of_lt_of_le (pow_pos (by norm_num) _) h3
  have hexp : ulpExp x = 971 := by
    have hlog : Int.log 2 |x| = 1023 := by
      rw [abs_of_pos hx0]
      apply le_antisymm
      · have : Int.log 2 x < 1024 := by
          rw [← Int.lt_zpow_iff_log_lt (by norm_num) hx0]
          refine lt_of_lt_of_eq h1 ?_
          exact (zpow_natCast (2 : ℚ) 1024).symm
        omega
      · rw [← Int.zpow_le_iff_le_log (by norm_num) hx0]
        refine le_of_eq_of_le ?_ h3
        exact zpow_natCast (2 : ℚ) 1023
    unfold ulpExp
    rw [hlog]
    rfl
  rw [rne64_eq x hx0.ne', hexp]

/-- Exact results overflow to the infinity of their sign exactly from half a unit above the largest binary64 value. -/
theorem f64_overflow (x : ℚ) (negative : Bool) : F64.ofRat x = .inf negative ↔ 2 ^ 1024 - 2 ^ 970 ≤ |x| ∧ negative = decide (x < 0) := by
  have hkey : (2 : ℚ) ^ 1024 ≤ |rne64 x| ↔ 2 ^ 1024 - 2 ^ 970 ≤ |x| := by
    rcases le_total 0 x with h0 | h0
    · have : 0 ≤ rne64 x := by
        have := rne64_mono h0
        rwa [rne64_zero] at this
      rw [abs_of_nonneg h0, abs_of_nonneg this, rne64_overflow x h0]
    · have : rne64 x ≤ 0 := by
        have := rne64_mono h0
        rwa [rne64_zero] at this
      rw [abs_of_nonpos h0, abs_of_nonpos this, ← rne64_neg, rne64_overflow (-x) (by linarith)]
  unfold F64.ofRat
  dsimp only
  split_ifs with hc
  · rw [F64.inf.injEq]
    constructor
    · intro h; exact ⟨hkey.mp hc, h.symm⟩
    · intro h; exact h.2.symm
  · constructor
    · intro h; cases h
    · intro h; exact absurd (hkey.mpr h.1) hc

theorem valid_ofRat (x : ℚ) : (F64.ofRat x).Valid := by
  cases h : F64.ofRat x with
  | nan => trivial
  | inf s => trivial
  | fin r => exact f64_result_is_double x r h

/-- Whole numbers below `2^53` are binary64 values. -/
theorem isDouble_int (z : ℤ) (h : |z| < 2 ^ 53) : IsDouble z := ⟨z, 0, h, by norm_num, by norm_num, by simp⟩

theorem isDouble_neg {x : ℚ} (h : IsDouble x) : IsDouble (-x) := by
  obtain ⟨m, e, h1, h2, h3, rfl⟩ := h
  exact ⟨-m, e, by rwa [abs_neg], h2, h3, by push_cast; ring⟩

/-- A binary64 value is a whole number or small. -/
theorem isDouble_cases {x : ℚ} (h : IsDouble x) : (∃ z : ℤ, x = z) ∨ |x| < 2 ^ 52 := by
  obtain ⟨m, e, h1, h2, h3, rfl⟩ := h
  rcases le_or_gt 0 e with he | he
  · left
    obtain ⟨d, rfl⟩ := Int.eq_ofNat_of_zero_le he
    exact ⟨m * 2 ^ d, by push_cast; rw [zpow_natCast]⟩
  · right
    have hm : |(m : ℚ)| < 2 ^ 53 := by exact_mod_cast h1
    rw [abs_mul, abs_of_pos (two_zpow_pos e)]
    have h4 : (2 : ℚ) ^ e ≤ 2 ^ (-1 : ℤ) := zpow_le_zpow_right₀ (by norm_num) (by omega)
    have h5 : (2 : ℚ) ^ (-1 : ℤ) = 1 / 2 := by norm_num
    rw [h5] at h4
    have := two_zpow_pos e
    nlinarith [abs_nonneg (m : ℚ)]

/-- No operation leaves the set of binary64 data. -/
theorem f64_operations_valid (a b : F64) (ha : a.Valid) (_hb : b.Valid) :
    (F64.add a b).Valid ∧ (F64.sub a b).Valid ∧ (F64.mul a b).Valid ∧ (F64.div a b).Valid ∧ (F64.neg a).Valid ∧
      (F64.round a).Valid ∧ (F64.floor a).Valid := by
  have hadd : ∀ a b : F64, (F64.add a b).Valid := by
    intro a b
    unfold F64.add
    split
    · exact valid_ofRat _
    · split_ifs <;> trivial
    all_goals trivial
  refine ⟨hadd a b, hadd a b.neg, ?_, ?_, ?_, ?_, ?_⟩
  · unfold F64.mul
    split
    · exact valid_ofRat _
    · trivial
    · split_ifs <;> trivial
    · split_ifs <;> trivial
    all_goals trivial
  · unfold F64.div
    split
    · split_ifs
      · trivial
      · trivial
      · exact valid_ofRat _
    · trivial
    · trivial
    · exact isDouble_int 0 (by norm_num)
    all_goals trivial
  · cases a with
    | nan => trivial
    | inf s => trivial
    | fin x => exact isDouble_neg ha
  · cases a with
    | nan => trivial
    | inf s => trivial
    | fin x =>
      show IsDouble ((roundAway x : ℤ) : ℚ)
      rcases isDouble_cases ha with ⟨z, rfl⟩ | hlt
      · have : roundAway (z : ℚ) = z := by
          unfold roundAway
          split_ifs
          · rw [add_comm, Int.floor_add_intCast]; norm_num
          · rw [sub_eq_neg_add, Int.ceil_add_intCast]; norm_num
        rw [this]; exact ha
      · apply isDouble_int
        have hl := abs_lt.mp hlt
        have hb : |roundAway x| ≤ 2 ^ 52 := by
          unfold roundAway
          rw [abs_le]
          split_ifs with h0
          · have h1 := Int.floor_le (x + 1 / 2)
            have h2 : 0 ≤ ⌊x + 1 / 2⌋ := Int.floor_nonneg.mpr (by linarith)
            constructor
            · omega
            · have : ((⌊x + 1 / 2⌋ : ℤ) : ℚ) < 2 ^ 52 + 1 := by linarith
              have : ⌊x + 1 / 2⌋ < 2 ^ 52 + 1 := by exact_mod_cast this
              omega
          · have h1 := Int.le_ceil (x - 1 / 2)
            have h2 : ⌈x - 1 / 2⌉ ≤ 0 := Int.ceil_nonpos.mpr (by linarith)
            constructor
            · have : -(2 ^ 52 : ℚ) - 1 < ((⌈x - 1 / 2⌉ : ℤ) : ℚ) := by linarith
              have : -(2 ^ 52 : ℤ) - 1 < ⌈x - 1 / 2⌉ := by exact_mod_cast this
              omega
            · omega
        omega
  · cases a with
    | nan => trivial
    | inf s => trivial
    | fin x =>
      show IsDouble ((⌊x⌋ : ℤ) : ℚ)
      rcases isDouble_cases ha with ⟨z, rfl⟩ | hlt
      · rw [Int.floor_intCast]; exact ha
      · apply isDouble_int
        have hl := abs_lt.mp hlt
        have h1 := Int.floor_le x
        have h2 : -(2 ^ 52) ≤ ⌊x⌋ := by rw [Int.le_floor]; push_cast; linarith
        have h3 : ((⌊x⌋ : ℤ) : ℚ) < 2 ^ 52 := by linarith
        have h4 : ⌊x⌋ < 2 ^ 52 := by exact_mod_cast h3
        rw [abs_lt]
        constructor <;> omega

/-- Examples: a third is rounded to the literal Rust prints as 0.3333333333333333; halves go to even; the largest value. -/
example : F64.ofRat (1 / 3) = .fin (6004799503160661 / 18014398509481984) ∧ F64.ofRat (2 ^ 53 + 1) = .fin (2 ^ 53) ∧
    F64.ofRat (2 ^ 53 + 3) = .fin (2 ^ 53 + 4) := by decide +kernel

example : F64.ofRat (2 ^ 1024) = .inf false := by
  refine (f64_overflow _ _).mpr ⟨?_, ?_⟩
  · rw [abs_of_nonneg (pow_nonneg (by norm_num) _)]
    exact sub_le_self _ (pow_nonneg (by norm_num) _)
  · rw [eq_comm, decide_eq_false_iff_not, not_lt]
    exact pow_nonneg (by norm_num) _

end Sia
