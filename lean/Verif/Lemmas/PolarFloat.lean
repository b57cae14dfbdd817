import Verif.Lemmas.FloatNear
import Verif.Spec.ZernikeSpec
import Verif.Props.FeatureBounds
import Mathlib.Analysis.SpecialFunctions.Trigonometric.Bounds

/-! Polar coordinates in machine arithmetic. -/
namespace Sia
open FloatOps LawfulFloat

/-- The coordinate of pixel row (or column) `i`. -/
noncomputable def gridCoord (n i : Nat) : ℝ := (2 * (i : ℝ) - (n - 1)) / (Real.sqrt 2 * (n - 1))

theorem sqrt2_bounds : (7 / 5 : ℝ) ≤ Real.sqrt 2 ∧ Real.sqrt 2 ≤ 3 / 2 := by
  constructor
  · apply Real.le_sqrt_of_sq_le; norm_num
  · rw [Real.sqrt_le_left (by norm_num)]; norm_num

/-- A coordinate is zero or not very small. -/
theorem gridCoord_zero_or (n i : Nat) (hn : 2 ≤ n) (hn2 : n ≤ 2 ^ 14) : gridCoord n i = 0 ∨ 1 / 2 ^ 15 ≤ |gridCoord n i| := by
  unfold gridCoord
  by_cases h : 2 * i + 1 = n
  · left
    have : 2 * (i : ℝ) - ((n : ℝ) - 1) = 0 := by rw [← h]; push_cast; ring
    rw [this, zero_div]
  · right
    have hn' : (2 : ℝ) ≤ n := by exact_mod_cast hn
    have hn2' : (n : ℝ) ≤ 2 ^ 14 := by exact_mod_cast hn2
    have h1 : (1 : ℝ) ≤ |2 * (i : ℝ) - ((n : ℝ) - 1)| := by
      have hz : (2 * (i : ℤ) - ((n : ℤ) - 1)) ≠ 0 := by omega
      have := Int.one_le_abs hz
      exact_mod_cast this
    have h2 := sqrt2_bounds
    have h3 : 0 < Real.sqrt 2 * ((n : ℝ) - 1) := by apply mul_pos <;> linarith [h2.1]
    rw [abs_div, abs_of_pos h3, le_div_iff₀ h3]
    refine le_trans ?_ h1
    have h4 : Real.sqrt 2 * ((n : ℝ) - 1) ≤ 3 / 2 * 2 ^ 14 := mul_le_mul h2.2 (by linarith) (by linarith) (by norm_num)
    calc 1 / 2 ^ 15 * (Real.sqrt 2 * ((n : ℝ) - 1)) ≤ 1 / 2 ^ 15 * (3 / 2 * 2 ^ 14) := mul_le_mul_of_nonneg_left h4 (by norm_num)
      _ ≤ 1 := by norm_num

theorem gridCoord_abs_le (n i : Nat) (hn : 2 ≤ n) (hi : i < n) : |gridCoord n i| ≤ 1 := by
  have h := pixelPoint_norm_le n i i hn hi hi
  have h2 := Complex.abs_re_le_norm (pixelPoint n i i)
  exact h2.trans h

section
variable {F : Type} [FloatOps F] [LawfulFloat F] [IntExact F]

theorem frac_rel : Rel 1 (frac1Sqrt2 : F) (1 / Real.sqrt 2) := by
  have h := frac_spec (F := F)
  refine ⟨h.1, h.2.trans ?_⟩
  have h2 := sqrt2_bounds
  have h3 : (1 / 2 : ℝ) ≤ 1 / Real.sqrt 2 := by
    apply one_div_le_one_div_of_le <;> linarith [h2.1]
  rw [abs_of_pos (by linarith)]
  have := u_le_half_ulp (F := F)
  have := ulp_pos
  nlinarith

theorem coordF_rel (n i : Nat) (a : F) (hn : 2 ≤ n) (hn2 : n ≤ 2 ^ 14) (hi : i < n) (ha : IsInt a ((i + 1 : ℕ) : ℤ)) :
    Rel 3 (coordF a n) (gridCoord n i) := by
  have h1 : IsInt (ofInt 1 : F) 1 := isInt_ofInt _ (by norm_num)
  have h2 : IsInt (ofInt 2 : F) 2 := isInt_ofInt _ (by norm_num)
  have hN : IsInt (ofInt (n : ℤ) : F) n := isInt_ofInt _ (nat_abs_le _ (by omega))
  have hN' : (2 : ℝ) ≤ n := by exact_mod_cast hn
  have t1 := h1.add hN (by rw [abs_of_nonneg (by omega)]; omega)
  have t2 := h2.mul ha (by rw [abs_of_nonneg (by positivity)]; omega)
  have t3 := t1.sub t2 (by rw [abs_le]; constructor <;> omega)
  have t4 := h1.sub hN (by rw [abs_le]; constructor <;> omega)
  have hd0 : (1 : ℤ) - n ≠ 0 := by omega
  have hs := sqrt2_bounds
  have hne : (n : ℝ) - 1 ≠ 0 := by linarith
  have hne' : (1 : ℝ) - n ≠ 0 := by linarith
  have e : gridCoord n i = 1 / Real.sqrt 2 * (((1 + (n : ℤ) - 2 * ((i + 1 : ℕ) : ℤ) : ℤ)) : ℝ) / (((1 - (n : ℤ) : ℤ)) : ℝ) := by
    unfold gridCoord
    push_cast
    have : Real.sqrt 2 ≠ 0 := by linarith [hs.1]
    field_simp
    ring
  unfold coordF
  by_cases hz : 1 + (n : ℤ) - 2 * ((i + 1 : ℕ) : ℤ) = 0
  · rw [hz] at t3 e
    have t5 := IsInt.mul_zero (frac_rel (F := F)).1 t3
    have t6 := t5.div (k := 0) t4 hd0 (by ring) (by norm_num)
    have e0 : gridCoord n i = ((0 : ℤ) : ℝ) := by rw [e]; simp
    rw [e0]
    exact t6.rel.mono (by norm_num)
  · have hzr : (1 : ℝ) ≤ |(((1 + (n : ℤ) - 2 * ((i + 1 : ℕ) : ℤ) : ℤ)) : ℝ)| := by exact_mod_cast Int.one_le_abs hz
    have hzu : |(((1 + (n : ℤ) - 2 * ((i + 1 : ℕ) : ℤ) : ℤ)) : ℝ)| ≤ 2 ^ 20 := by
      have : |1 + (n : ℤ) - 2 * ((i + 1 : ℕ) : ℤ)| ≤ 2 ^ 20 := by rw [abs_le]; constructor <;> omega
      exact_mod_cast this
    have hq1 : (1 / 2 : ℝ) ≤ |1 / Real.sqrt 2| := by
      rw [abs_of_pos (by positivity)]
      apply one_div_le_one_div_of_le <;> linarith [hs.1]
    have hq2 : |1 / Real.sqrt 2| ≤ 1 := by
      rw [abs_of_pos (by positivity), div_le_one (by positivity)]; linarith [hs.1]
    have t5 := (frac_rel (F := F)).mul t3.rel (by norm_num) le_rfl (by norm_num) (by norm_num)
      (by
        rw [abs_mul]
        refine le_trans ?_ (mul_le_mul hq1 hzr (by norm_num) (abs_nonneg _))
        norm_num)
      (by
        rw [abs_mul]
        refine (mul_le_mul hq2 hzu (abs_nonneg _) (by norm_num)).trans ?_
        norm_num)
    have hgl := gridCoord_abs_le n i hn hi
    have hgz : gridCoord n i ≠ 0 := by
      rw [e]
      have h3 : (((1 + (n : ℤ) - 2 * ((i + 1 : ℕ) : ℤ) : ℤ)) : ℝ) ≠ 0 := by exact_mod_cast hz
      have h4 : (((1 - (n : ℤ) : ℤ)) : ℝ) ≠ 0 := by exact_mod_cast hd0
      positivity
    have hgr := (gridCoord_zero_or n i hn hn2).resolve_left hgz
    have t6 := t5.div t4.rel (by norm_num) le_rfl (by norm_num) (by norm_num) (by exact_mod_cast hd0)
      (by rw [← e]; refine le_trans ?_ hgr; norm_num) (by rw [← e]; refine hgl.trans ?_; norm_num)
    rw [← e] at t6
    exact t6.mono (by norm_num)

/-- The square of a coordinate. -/
theorem square_near (M : Libm F) (hM : M.Lawful) (a : F) (x : ℝ) (ha : Rel 3 a x) (hx : |x| ≤ 1) :
    fin (M.powf a (ofInt 2)) ∧ |val (M.powf a (ofInt 2)) - x ^ 2| ≤ ulp * (15 / 2 * x ^ 2 + omega) := by
  have h2 : IsInt (ofInt 2 : F) 2 := isInt_ofInt _ (by norm_num)
  have hp := ulp_pos
  have hu : ulp ≤ 1 / 2 ^ 50 := by unfold ulp; norm_num
  have e1 := rel_mul_exact ha.2 ha.2 (by norm_num) (by norm_num) (by norm_num) (by norm_num)
  have e2 : |val a ^ 2 - x ^ 2| ≤ (49 / 8) * ulp * x ^ 2 := by
    rw [pow_two, pow_two]
    refine e1.trans (le_of_eq ?_)
    rw [abs_mul_self]; ring
  have hx2 : 0 ≤ x ^ 2 := by positivity
  have hsq : |val a| ^ 2 ≤ (1 + 1 / 2 ^ 40) * x ^ 2 := by
    rw [sq_abs]
    have h3 := (abs_le.mp e2).2
    have h4 : 49 / 8 * ulp * x ^ 2 ≤ 1 / 2 ^ 40 * x ^ 2 := by
      apply mul_le_mul_of_nonneg_right _ hx2
      norm_num at *; linarith
    linarith
  have hx1 : x ^ 2 ≤ 1 := by rw [← sq_abs]; exact pow_le_one₀ (abs_nonneg _) hx
  have hspec := hM.powf a (ofInt 2) 2 ha.1 h2.1 (by rw [h2.2]; norm_num) (by
    exact hsq.trans ((mul_le_mul_of_nonneg_left hx1 (by norm_num)).trans (by norm_num)))
  refine ⟨hspec.1, ?_⟩
  have h5 := abs_sub_le (val (M.powf a (ofInt 2))) (val a ^ 2) (x ^ 2)
  have h6 := hspec.2
  have h7 : ulp * (|val a| ^ 2 + omega) ≤ ulp * ((1 + 1 / 2 ^ 40) * x ^ 2 + omega) :=
    mul_le_mul_of_nonneg_left (by linarith) hp.le
  have h8 : 0 ≤ ulp * x ^ 2 := by positivity
  norm_num at *
  linarith

omit [IntExact F] in
theorem rel_zero_iff {a : F} {x : ℝ} (h : Rel 3 a x) : val a = 0 ↔ x = 0 := by
  have hu : 3 * ulp ≤ 1 / 2 := by unfold ulp; norm_num
  constructor
  · intro h0
    have := h.2
    rw [h0, zero_sub, abs_neg] at this
    have h2 : 3 * ulp * |x| ≤ 1 / 2 * |x| := mul_le_mul_of_nonneg_right hu (abs_nonneg x)
    have h3 : |x| ≤ 0 := by linarith
    exact abs_eq_zero.mp (le_antisymm h3 (abs_nonneg x))
  · intro h0
    have := h.2
    rw [h0] at this
    simpa using this

theorem expI_sub_le (a b : ℝ) : ‖Complex.exp (a * Complex.I) - Complex.exp (b * Complex.I)‖ ≤ |a - b| := by
  have e : Complex.exp (a * Complex.I) - Complex.exp (b * Complex.I) =
      Complex.exp (b * Complex.I) * (Complex.exp (Complex.I * ((a - b : ℝ) : ℂ)) - 1) := by
    rw [mul_sub, ← Complex.exp_add, mul_one]
    congr 2
    push_cast
    ring
  rw [e, norm_mul, Complex.norm_exp_ofReal_mul_I, one_mul]
  exact Real.norm_exp_I_mul_ofReal_sub_one_le

theorem exp_arg (z : ℂ) (hz : z ≠ 0) : Complex.exp (Complex.arg z * Complex.I) = z / (‖z‖ : ℂ) := by
  have hn : ((‖z‖ : ℝ) : ℂ) ≠ 0 := by simpa using hz
  rw [eq_div_iff hn, mul_comm]
  exact Complex.norm_mul_exp_arg_mul_I z

/-- Directions of nearby points. -/
theorem direction_near (w z : ℂ) (hw : w ≠ 0) (hz : z ≠ 0) : ‖w / (‖w‖ : ℂ) - z / (‖z‖ : ℂ)‖ ≤ 2 * ‖w - z‖ / ‖z‖ := by
  have hwn : (0 : ℝ) < ‖w‖ := norm_pos_iff.mpr hw
  have hzn : (0 : ℝ) < ‖z‖ := norm_pos_iff.mpr hz
  have hwc : ((‖w‖ : ℝ) : ℂ) ≠ 0 := by exact_mod_cast hwn.ne'
  have hzc : ((‖z‖ : ℝ) : ℂ) ≠ 0 := by exact_mod_cast hzn.ne'
  have e : w / (‖w‖ : ℂ) - z / (‖z‖ : ℂ) = (w / (‖w‖ : ℂ)) * (((‖z‖ - ‖w‖ : ℝ) : ℂ) / (‖z‖ : ℂ)) + (w - z) / (‖z‖ : ℂ) := by
    push_cast
    field_simp
    ring
  rw [e]
  refine (norm_add_le _ _).trans ?_
  rw [norm_mul, norm_div, norm_div, norm_div]
  simp only [Complex.norm_real, norm_norm]
  rw [div_self hwn.ne', one_mul, ← add_div]
  apply div_le_div_of_nonneg_right _ hzn.le
  have := abs_norm_sub_norm_le z w
  rw [norm_sub_rev z w] at this
  rw [Real.norm_eq_abs]
  linarith

/-- The polar coordinates of a pixel in machine arithmetic. -/
theorem toPolarF_near (M : Libm F) (hM : M.Lawful) (n i j : Nat) (a b : F) (hn : 2 ≤ n) (hn2 : n ≤ 2 ^ 14) (hi : i < n) (hj : j < n)
    (ha : IsInt a ((i + 1 : ℕ) : ℤ)) (hb : IsInt b ((j + 1 : ℕ) : ℤ)) :
    Rel 7 (toPolarF M a b n).1 ‖pixelPoint n i j‖ ∧ fin (toPolarF M a b n).2 ∧ |val (toPolarF M a b n).2| ≤ 4 ∧
      ‖Complex.exp (val (toPolarF M a b n).2 * Complex.I) - Complex.exp (Complex.arg (pixelPoint n i j) * Complex.I)‖ ≤ 10 * ulp := by
  have hx := coordF_rel n i a hn hn2 hi ha
  have hy := coordF_rel n j b hn hn2 hj hb
  have hp := ulp_pos
  have hu : ulp ≤ 1 / 2 ^ 50 := by unfold ulp; norm_num
  have hzre : pixelPoint n i j = ⟨gridCoord n i, gridCoord n j⟩ := rfl
  set x := gridCoord n i
  set y := gridCoord n j
  set z := pixelPoint n i j
  unfold toPolarF
  dsimp only
  by_cases hzero : isZeroF (coordF a n) && isZeroF (coordF b n)
  · rw [if_pos hzero]
    rw [Bool.and_eq_true, isZeroF_iff _ hx.1, isZeroF_iff _ hy.1, rel_zero_iff hx, rel_zero_iff hy] at hzero
    have h0 : IsInt (ofInt 0 : F) 0 := isInt_ofInt _ (by norm_num)
    have ev : val (ofInt 0 : F) = 0 := by rw [h0.2]; simp
    have ez : z = 0 := by rw [hzre, hzero.1, hzero.2]; rfl
    refine ⟨?_, h0.1, ?_, ?_⟩
    · have := h0.rel.mono (show (0 : ℝ) ≤ 7 by norm_num)
      rw [ez]
      simpa using this
    · rw [ev]; norm_num
    · rw [ev, ez]; simp [hp.le]
  · rw [if_neg hzero]
    rw [Bool.and_eq_true, isZeroF_iff _ hx.1, isZeroF_iff _ hy.1] at hzero
    have hzero' : ¬ (x = 0 ∧ y = 0) := by rw [← rel_zero_iff hx, ← rel_zero_iff hy]; exact hzero
    have hz0 : z ≠ 0 := by
      rw [hzre]; intro h; exact hzero' ⟨congrArg Complex.re h, congrArg Complex.im h⟩
    have hr2 : ‖z‖ ^ 2 = x ^ 2 + y ^ 2 := by
      rw [hzre, Complex.sq_norm, Complex.normSq_mk]; ring
    have hzn : 0 < ‖z‖ := norm_pos_iff.mpr hz0
    have hzle : ‖z‖ ≤ 1 := pixelPoint_norm_le n i j hn hi hj
    have hlow : 1 / 2 ^ 30 ≤ x ^ 2 + y ^ 2 := by
      have hsq : ∀ t : ℝ, 1 / 2 ^ 15 ≤ |t| → 1 / 2 ^ 30 ≤ t ^ 2 := fun t ht => by
        have := pow_le_pow_left₀ (by norm_num) ht 2
        rw [sq_abs] at this
        refine le_trans ?_ this
        norm_num
      rcases gridCoord_zero_or n i hn hn2 with h | h
      · rcases gridCoord_zero_or n j hn hn2 with h' | h'
        · exact absurd ⟨h, h'⟩ hzero'
        · have := hsq _ h'; have := sq_nonneg x; linarith
      · have := hsq _ h; have := sq_nonneg y; linarith
    have hxle : |x| ≤ 1 := gridCoord_abs_le n i hn hi
    have hyle : |y| ≤ 1 := gridCoord_abs_le n j hn hj
    obtain ⟨fp, hpe⟩ := square_near M hM _ x hx hxle
    obtain ⟨fq, hqe⟩ := square_near M hM _ y hy hyle
    set p := M.powf (coordF a n) (ofInt 2)
    set q := M.powf (coordF b n) (ofInt 2)
    have hom : omega ≤ 1 / 2 ^ 60 * ‖z‖ ^ 2 := by
      have h1 := omega_tiny
      rw [hr2]
      have h2 : 1 / 2 ^ 60 * (1 / 2 ^ 30) ≤ 1 / 2 ^ 60 * (x ^ 2 + y ^ 2) := mul_le_mul_of_nonneg_left hlow (by norm_num)
      refine h1.trans (le_trans ?_ h2)
      norm_num
    have hz2 : 0 < ‖z‖ ^ 2 := by positivity
    have hup : 0 < ulp * ‖z‖ ^ 2 := by positivity
    have hpq : |val p + val q - ‖z‖ ^ 2| ≤ 31 / 4 * ulp * ‖z‖ ^ 2 := by
      rw [hr2, show val p + val q - (x ^ 2 + y ^ 2) = (val p - x ^ 2) + (val q - y ^ 2) by ring]
      refine (abs_add_le _ _).trans ((add_le_add hpe hqe).trans ?_)
      rw [← mul_add, show 15 / 2 * x ^ 2 + omega + (15 / 2 * y ^ 2 + omega) = 15 / 2 * (x ^ 2 + y ^ 2) + 2 * omega by ring, ← hr2,
        mul_comm (31 / 4) ulp, mul_assoc]
      apply mul_le_mul_of_nonneg_left _ hp.le
      norm_num at hom
      linarith
    have hz21 : ‖z‖ ^ 2 ≤ 1 := pow_le_one₀ hzn.le hzle
    have hsum := add_spec p q fp fq (by
      have h1 := abs_add_le (val p + val q - ‖z‖ ^ 2) (‖z‖ ^ 2)
      rw [sub_add_cancel, abs_of_pos hz2] at h1
      have h2 : 31 / 4 * ulp * ‖z‖ ^ 2 ≤ 1 := by
        have : 31 / 4 * ulp * ‖z‖ ^ 2 ≤ 31 / 4 * ulp * 1 := mul_le_mul_of_nonneg_left hz21 (by positivity)
        refine this.trans ?_
        norm_num at hu ⊢
        linarith
      have : (2 : ℝ) ≤ 2 ^ 200 := by norm_num
      linarith)
    have hs := round_near (F := F) _ _ _ _ hsum.2 (by rw [abs_of_pos hz2]; exact hpq) (by norm_num) (by norm_num)
      (by rw [abs_of_pos hz2, hr2]; refine le_trans ?_ hlow; norm_num)
    rw [abs_of_pos hz2] at hs
    set s := FloatOps.add p q
    have hs' : |val s - ‖z‖ ^ 2| ≤ 17 / 2 * ulp * ‖z‖ ^ 2 := hs.trans (by norm_num)
    have hsmall : 17 / 2 * ulp * ‖z‖ ^ 2 ≤ 1 / 2 ^ 40 * ‖z‖ ^ 2 := by
      apply mul_le_mul_of_nonneg_right _ hz2.le
      norm_num at hu ⊢
      linarith
    have hsl := (abs_le.mp hs').1
    have hsu := (abs_le.mp hs').2
    have hs0 : 0 ≤ val s := by norm_num at hsmall; linarith
    have hs4 : (‖z‖ / 2) ^ 2 ≤ val s := by norm_num at hsmall; nlinarith
    have hsle : val s ≤ (1 + 1 / 2 ^ 40) * ‖z‖ ^ 2 := by linarith
    have hsq := hM.sqrt s hsum.1 hs0 (by
      refine hsle.trans ((mul_le_mul_of_nonneg_left hz21 (by norm_num)).trans (by norm_num)))
    have hroot0 : ‖z‖ / 2 ≤ Real.sqrt (val s) := Real.le_sqrt_of_sq_le hs4
    have hroot1 : Real.sqrt (val s) ≤ (1 + 1 / 2 ^ 40) * ‖z‖ := by
      rw [Real.sqrt_le_left (by positivity)]
      refine hsle.trans ?_
      rw [mul_pow]
      apply mul_le_mul_of_nonneg_right _ hz2.le
      norm_num
    have hrootd : |Real.sqrt (val s) - ‖z‖| ≤ 17 / 3 * ulp * ‖z‖ := by
      have e : |Real.sqrt (val s) - ‖z‖| * (Real.sqrt (val s) + ‖z‖) = |val s - ‖z‖ ^ 2| := by
        have h1 : 0 ≤ Real.sqrt (val s) + ‖z‖ := by positivity
        conv_lhs => rw [← abs_of_nonneg h1, ← abs_mul]
        rw [show (Real.sqrt (val s) - ‖z‖) * (Real.sqrt (val s) + ‖z‖) = Real.sqrt (val s) ^ 2 - ‖z‖ ^ 2 by ring, Real.sq_sqrt hs0]
      have h1 : |Real.sqrt (val s) - ‖z‖| * (3 / 2 * ‖z‖) ≤ |Real.sqrt (val s) - ‖z‖| * (Real.sqrt (val s) + ‖z‖) :=
        mul_le_mul_of_nonneg_left (by linarith) (abs_nonneg _)
      rw [e] at h1
      have h2 : |Real.sqrt (val s) - ‖z‖| * (3 / 2 * ‖z‖) ≤ (17 / 3 * ulp * ‖z‖) * (3 / 2 * ‖z‖) := by
        refine (h1.trans hs').trans (le_of_eq ?_)
        ring
      exact le_of_mul_le_mul_right h2 (by positivity)
    have hrad : Rel 7 (M.sqrt s) ‖z‖ := by
      refine ⟨hsq.1, ?_⟩
      rw [abs_of_pos hzn]
      have h1 := abs_sub_le (val (M.sqrt s)) (Real.sqrt (val s)) ‖z‖
      have hom2 : omega ≤ 1 / 2 ^ 40 * ‖z‖ := by
        have h3 : ‖z‖ ^ 2 ≤ ‖z‖ := by nlinarith
        norm_num at hom ⊢
        linarith
      have h2 : ulp * (Real.sqrt (val s) + omega) ≤ ulp * ((1 + 1 / 2 ^ 39) * ‖z‖) := by
        apply mul_le_mul_of_nonneg_left _ hp.le
        norm_num at hroot1 hom2 ⊢
        linarith
      have h3 := hsq.2
      have h4 : 0 < ulp * ‖z‖ := by positivity
      norm_num at h2 ⊢
      linarith
    -- the angle
    set w : ℂ := ⟨val (coordF a n), val (coordF b n)⟩ with hw
    have hw0 : w ≠ 0 := by
      intro h; apply hzero; exact ⟨congrArg Complex.re h, congrArg Complex.im h⟩
    have hang := hM.atan2 (coordF b n) (coordF a n) hy.1 hx.1 (fun h => hzero ⟨h.2, h.1⟩)
    obtain ⟨fang, hang4, turns, hturn⟩ := hang
    have hwz : ‖w - z‖ ≤ 3 * ulp * ‖z‖ := by
      rw [← Real.sqrt_sq (norm_nonneg (w - z)), Real.sqrt_le_left (by positivity)]
      have e : ‖w - z‖ ^ 2 = (val (coordF a n) - x) ^ 2 + (val (coordF b n) - y) ^ 2 := by
        rw [hw, hzre, Complex.sq_norm, Complex.normSq_apply]
        simp only [Complex.sub_re, Complex.sub_im]
        ring
      rw [e, mul_pow, hr2]
      have h1 : (val (coordF a n) - x) ^ 2 ≤ (3 * ulp) ^ 2 * x ^ 2 := by
        rw [← sq_abs, ← sq_abs x, ← mul_pow]
        exact pow_le_pow_left₀ (abs_nonneg _) hx.2 2
      have h2 : (val (coordF b n) - y) ^ 2 ≤ (3 * ulp) ^ 2 * y ^ 2 := by
        rw [← sq_abs, ← sq_abs y, ← mul_pow]
        exact pow_le_pow_left₀ (abs_nonneg _) hy.2 2
      linarith
    refine ⟨hrad, fang, hang4, ?_⟩
    have hdir : ‖Complex.exp (Complex.arg w * Complex.I) - Complex.exp (Complex.arg z * Complex.I)‖ ≤ 6 * ulp := by
      rw [exp_arg w hw0, exp_arg z hz0]
      refine (direction_near w z hw0 hz0).trans ?_
      rw [div_le_iff₀ hzn]
      linarith
    have hturn2 : Complex.exp (((Complex.arg w + 2 * Real.pi * turns : ℝ) : ℂ) * Complex.I) = Complex.exp (Complex.arg w * Complex.I) := by
      rw [Complex.exp_eq_exp_iff_exists_int]
      refine ⟨turns, ?_⟩
      push_cast
      ring
    have h1 := expI_sub_le (val (M.atan2 (coordF b n) (coordF a n))) (Complex.arg w + 2 * Real.pi * turns)
    rw [hturn2] at h1
    have h2 := norm_sub_le_norm_sub_add_norm_sub (Complex.exp (val (M.atan2 (coordF b n) (coordF a n)) * Complex.I))
      (Complex.exp (Complex.arg w * Complex.I)) (Complex.exp (Complex.arg z * Complex.I))
    linarith

end
end Sia
