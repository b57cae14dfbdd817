import Verif.Lemmas.ZernikeFloatLemmas

/-! Absolute errors measured against a scale: products, sums and quotients. -/
namespace Sia
open FloatOps LawfulFloat

section
variable {F : Type} [FloatOps F] [LawfulFloat F] [IntExact F]

/-- `a` approximates `x`, a number of magnitude at most `X`, up to `k` units in the last place of `X`. -/
def Approx (k : ℝ) (a : F) (x X : ℝ) : Prop := fin a ∧ |val a - x| ≤ k * ulp * X ∧ |x| ≤ X

omit [IntExact F] in
theorem Rel.approx {k : ℝ} {a : F} {x : ℝ} (h : Rel k a x) : Approx k a x |x| := ⟨h.1, h.2, le_rfl⟩

omit [IntExact F] in
theorem Approx.mono {k l : ℝ} {a : F} {x X Y : ℝ} (h : Approx k a x X) (hX : X ≤ Y) (hk : 0 ≤ k) (hkl : k ≤ l) : Approx l a x Y := by
  have h0 : 0 ≤ X := (abs_nonneg x).trans h.2.2
  refine ⟨h.1, h.2.1.trans ?_, h.2.2.trans hX⟩
  have := ulp_pos
  have hl : 0 ≤ l := hk.trans hkl
  gcongr

/-- Change of scale. -/
theorem Approx.rescale {k l : ℝ} {a : F} {x X Y : ℝ} (h : Approx k a x X) (hY : |x| ≤ Y) (hkl : k * X ≤ l * Y) : Approx l a x Y := by
  refine ⟨h.1, h.2.1.trans ?_, hY⟩
  have := ulp_pos
  nlinarith

theorem ulp_small {k : ℝ} (hk : k ≤ 2 ^ 40) : k * ulp ≤ 1 / 2 ^ 12 := by
  have : k * ulp ≤ 2 ^ 40 * ulp := mul_le_mul_of_nonneg_right hk ulp_pos.le
  refine this.trans ?_
  unfold ulp; norm_num

theorem Approx.abs_le {k : ℝ} {a : F} {x X : ℝ} (h : Approx k a x X) (hk : k ≤ 2 ^ 40) : |val a| ≤ (1 + 1 / 2 ^ 12) * X := by
  have h0 : 0 ≤ X := (abs_nonneg x).trans h.2.2
  have h1 := abs_add_le (val a - x) x
  rw [sub_add_cancel] at h1
  have h2 := mul_le_mul_of_nonneg_right (ulp_small hk) h0
  linarith [h.2.1, h.2.2]

/-- One rounding on top of a value near `x` on scale `X`. -/
theorem Approx.round {a : F} {A x X j : ℝ} (hfin : fin a) (hv : |val a - A| ≤ LawfulFloat.u F * (|A| + omega))
    (hA : |A - x| ≤ j * ulp * X) (hj : j ≤ 2 ^ 42) (hx : |x| ≤ X) (hX : 1 / 2 ^ 100 ≤ X) : Approx (j + 3 / 4) a x X := by
  have h0 : 0 ≤ X := (abs_nonneg x).trans hx
  have hju : j * ulp ≤ 1 / 2 ^ 10 := by
    have : j * ulp ≤ 2 ^ 42 * ulp := mul_le_mul_of_nonneg_right hj ulp_pos.le
    refine this.trans ?_
    unfold ulp; norm_num
  have hA2 : |A| + omega ≤ (1 + 1 / 2 ^ 9) * X := by
    have h1 := abs_add_le (A - x) x
    rw [sub_add_cancel] at h1
    have h2 := mul_le_mul_of_nonneg_right hju h0
    have h3 : omega ≤ 1 / 2 ^ 20 * X := by have := omega_tiny; linarith
    norm_num at *
    linarith
  have h3 : |val a - A| ≤ ulp / 2 * ((1 + 1 / 2 ^ 9) * X) :=
    hv.trans (mul_le_mul (u_le_half_ulp (F := F)) hA2 (add_nonneg (abs_nonneg _) omega_pos.le) (by have := ulp_pos; positivity))
  refine ⟨hfin, ?_, hx⟩
  have h4 := abs_sub_le (val a) A x
  have h5 : 0 ≤ ulp * X := mul_nonneg ulp_pos.le h0
  norm_num at h3 ⊢
  linarith

theorem Approx.mul {a b : F} {x y X Y k l : ℝ} (ha : Approx k a x X) (hb : Approx l b y Y) (hk : 0 ≤ k) (hl : 0 ≤ l)
    (hk2 : k ≤ 2 ^ 40) (hl2 : l ≤ 2 ^ 40) (hkl : k * l * ulp ≤ 1 / 4) (h0 : 1 / 2 ^ 100 ≤ X * Y) (h1 : X * Y ≤ 2 ^ 190) :
    Approx (k + l + 1) (FloatOps.mul a b) (x * y) (X * Y) := by
  have hX : 0 ≤ X := (abs_nonneg x).trans ha.2.2
  have hY : 0 ≤ Y := (abs_nonneg y).trans hb.2.2
  have hp := ulp_pos
  have hAB : |val a * val b - x * y| ≤ (k + l + 1 / 4) * ulp * (X * Y) := by
    have e : val a * val b - x * y = (val a - x) * (val b - y) + (val a - x) * y + x * (val b - y) := by ring
    rw [e]
    have t1 : |(val a - x) * (val b - y)| ≤ (k * ulp * X) * (l * ulp * Y) := by
      rw [abs_mul]; exact mul_le_mul ha.2.1 hb.2.1 (abs_nonneg _) (by positivity)
    have t2 : |(val a - x) * y| ≤ (k * ulp * X) * Y := by
      rw [abs_mul]; exact mul_le_mul ha.2.1 hb.2.2 (abs_nonneg _) (by positivity)
    have t3 : |x * (val b - y)| ≤ X * (l * ulp * Y) := by
      rw [abs_mul]; exact mul_le_mul ha.2.2 hb.2.1 (abs_nonneg _) hX
    have t4 : (k * ulp * X) * (l * ulp * Y) ≤ 1 / 4 * (ulp * (X * Y)) := by
      have : (k * ulp * X) * (l * ulp * Y) = (k * l * ulp) * (ulp * (X * Y)) := by ring
      rw [this]; exact mul_le_mul_of_nonneg_right hkl (by positivity)
    have t5 := abs_add_le ((val a - x) * (val b - y) + (val a - x) * y) (x * (val b - y))
    have t6 := abs_add_le ((val a - x) * (val b - y)) ((val a - x) * y)
    linarith
  have hxy : |x * y| ≤ X * Y := by rw [abs_mul]; exact mul_le_mul ha.2.2 hb.2.2 (abs_nonneg _) hX
  have hsz : |val a * val b| ≤ 2 ^ 200 := by
    rw [abs_mul]
    refine (mul_le_mul (ha.abs_le hk2) (hb.abs_le hl2) (abs_nonneg _) (by positivity)).trans ?_
    have e : (1 + 1 / 2 ^ 12 : ℝ) * X * ((1 + 1 / 2 ^ 12) * Y) = (1 + 1 / 2 ^ 12) ^ 2 * (X * Y) := by ring
    rw [e]
    refine (mul_le_mul_of_nonneg_left h1 (by positivity)).trans ?_
    norm_num
  have hs := mul_spec a b ha.1 hb.1 hsz
  have := Approx.round hs.1 hs.2 hAB (by norm_num at *; linarith) hxy h0
  refine this.mono le_rfl (by positivity) (by linarith)

theorem Approx.add {a b : F} {x y X Y k : ℝ} (ha : Approx k a x X) (hb : Approx k b y Y) (hk2 : k ≤ 2 ^ 40) (hk : 0 ≤ k)
    (h0 : 1 / 2 ^ 100 ≤ X + Y) (h1 : X + Y ≤ 2 ^ 190) : Approx (k + 1) (FloatOps.add a b) (x + y) (X + Y) := by
  have hX : 0 ≤ X := (abs_nonneg x).trans ha.2.2
  have hY : 0 ≤ Y := (abs_nonneg y).trans hb.2.2
  have hAB : |val a + val b - (x + y)| ≤ k * ulp * (X + Y) := by
    have e : val a + val b - (x + y) = (val a - x) + (val b - y) := by ring
    rw [e]
    refine (abs_add_le _ _).trans ?_
    linarith [ha.2.1, hb.2.1]
  have hxy : |x + y| ≤ X + Y := (abs_add_le _ _).trans (add_le_add ha.2.2 hb.2.2)
  have hsz : |val a + val b| ≤ 2 ^ 200 := by
    refine (abs_add_le _ _).trans ((add_le_add (ha.abs_le hk2) (hb.abs_le hk2)).trans ?_)
    norm_num at *
    linarith
  have hs := add_spec a b ha.1 hb.1 hsz
  have := Approx.round hs.1 hs.2 hAB (by norm_num at *; linarith) hxy h0
  exact this.mono le_rfl (by positivity) (by linarith)

theorem Approx.neg {a : F} {x X k : ℝ} (ha : Approx k a x X) (hk2 : k ≤ 2 ^ 40) (hk : 0 ≤ k) (h0 : 1 / 2 ^ 100 ≤ X) (h1 : X ≤ 2 ^ 190) :
    Approx (k + 1) (FloatOps.sub (ofInt 0) a) (-x) X := by
  have hz : IsInt (ofInt 0 : F) 0 := isInt_ofInt 0 (by norm_num)
  have hX : 0 ≤ X := (abs_nonneg x).trans ha.2.2
  have ez : val (ofInt 0 : F) = 0 := by rw [hz.2]; simp
  have hA : |(val (ofInt 0 : F) - val a) - (-x)| ≤ k * ulp * X := by
    rw [ez, show (0 : ℝ) - val a - -x = -(val a - x) by ring, abs_neg]; exact ha.2.1
  have hsz : |val (ofInt 0 : F) - val a| ≤ 2 ^ 200 := by
    rw [ez, zero_sub, abs_neg]
    refine (ha.abs_le hk2).trans ?_
    norm_num at *
    linarith
  have hs := sub_spec _ a hz.1 ha.1 hsz
  have := Approx.round hs.1 hs.2 hA (by norm_num at *; linarith) (by rw [abs_neg]; exact ha.2.2) h0
  exact this.mono le_rfl (by positivity) (by linarith)

/-- Division by a number known up to a small relative error. -/
theorem Approx.div {a b : F} {x y X k l : ℝ} (ha : Approx k a x X) (hb : Rel l b y) (hk : 0 ≤ k) (hl : 0 ≤ l)
    (hk2 : k ≤ 2 ^ 40) (hl2 : l ≤ 2 ^ 10) (hy : y ≠ 0) (h0 : 1 / 2 ^ 100 ≤ X / |y|) (h1 : X / |y| ≤ 2 ^ 190) :
    Approx (k + l + 2) (FloatOps.div a b) (x / y) (X / |y|) := by
  have hX : 0 ≤ X := (abs_nonneg x).trans ha.2.2
  have hp := ulp_pos
  have hy' : 0 < |y| := abs_pos.mpr hy
  have hlu : l * ulp ≤ 1 / 2 ^ 42 := by
    have : l * ulp ≤ 2 ^ 10 * ulp := by gcongr
    refine this.trans ?_
    unfold ulp; norm_num
  have hBy : (1 - 1 / 2 ^ 42) * |y| ≤ |val b| := by
    have h1 := abs_sub_abs_le_abs_sub y (val b)
    rw [abs_sub_comm y (val b)] at h1
    have h2 : l * ulp * |y| ≤ 1 / 2 ^ 42 * |y| := mul_le_mul_of_nonneg_right hlu hy'.le
    linarith [hb.2]
  have hB : 0 < |val b| := lt_of_lt_of_le (by positivity) hBy
  have hB0 : val b ≠ 0 := abs_pos.mp hB
  have hAB : |val a / val b - x / y| ≤ (k + l + 1) * ulp * (X / |y|) := by
    have e : val a / val b - x / y = ((val a - x) * y - x * (val b - y)) / (val b * y) := by field_simp; ring
    rw [e, abs_div, abs_mul (val b) y, div_le_iff₀ (by positivity)]
    have t1 : |(val a - x) * y - x * (val b - y)| ≤ (k * ulp * X) * |y| + X * (l * ulp * |y|) := by
      refine (abs_sub _ _).trans ?_
      rw [abs_mul, abs_mul]
      exact add_le_add (mul_le_mul_of_nonneg_right ha.2.1 (abs_nonneg _)) (mul_le_mul ha.2.2 hb.2 (abs_nonneg _) hX)
    refine t1.trans ?_
    have e2 : (k + l + 1) * ulp * (X / |y|) * (|val b| * |y|) = (k + l + 1) * ulp * X * |val b| := by field_simp
    rw [e2]
    have t3 : (k + l) * |y| ≤ (k + l + 1) * |val b| := by
      refine le_trans ?_ (mul_le_mul_of_nonneg_left hBy (by positivity))
      have t5 : (k + l) ≤ (k + l + 1) * (1 - 1 / 2 ^ 42) := by norm_num at hk2 hl2 ⊢; linarith
      calc (k + l) * |y| ≤ (k + l + 1) * (1 - 1 / 2 ^ 42) * |y| := mul_le_mul_of_nonneg_right t5 hy'.le
        _ = _ := by ring
    calc (k * ulp * X) * |y| + X * (l * ulp * |y|) = (ulp * X) * ((k + l) * |y|) := by ring
      _ ≤ (ulp * X) * ((k + l + 1) * |val b|) := mul_le_mul_of_nonneg_left t3 (by positivity)
      _ = _ := by ring
  have hxy : |x / y| ≤ X / |y| := by rw [abs_div]; exact div_le_div_of_nonneg_right ha.2.2 hy'.le
  have hsz : |val a / val b| ≤ 2 ^ 200 := by
    have t1 := abs_add_le (val a / val b - x / y) (x / y)
    rw [sub_add_cancel] at t1
    have t2 : (k + l + 1) * ulp ≤ 1 := by
      have t3 : (k + l + 1) * ulp ≤ (2 ^ 40 + 2 ^ 10 + 1) * ulp := by gcongr
      refine t3.trans ?_
      unfold ulp; norm_num
    have t4 : (k + l + 1) * ulp * (X / |y|) ≤ 1 * (X / |y|) := mul_le_mul_of_nonneg_right t2 (by positivity)
    have : (2 : ℝ) ^ 190 + 2 ^ 190 ≤ 2 ^ 200 := by norm_num
    linarith
  have hs := div_spec a b ha.1 hb.1 hB0 hsz
  have := Approx.round hs.1 hs.2 hAB (by norm_num at *; linarith) hxy h0
  exact this.mono le_rfl (by positivity) (by linarith)

end
end Sia
