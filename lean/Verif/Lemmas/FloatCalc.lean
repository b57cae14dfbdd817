import Verif.Spec.LibmSpec
import Verif.Lemmas.FloatInstances

/-! Error calculus for machine arithmetic: whole numbers are exact, relative errors add up. -/
namespace Sia
open FloatOps LawfulFloat

instance : IntExact ℝ where
  add_int a b n _ _ _ h := h
  sub_int a b n _ _ _ h := h
  mul_int a b n _ _ _ h := h
  div_int a b n _ _ _ _ h := h

theorem ofRat_int (n : ℤ) (hn : |n| ≤ 2 ^ 53) : F64.ofRat (n : ℚ) = .fin n := by
  have hb : |((n : ℚ) : ℝ)| ≤ 2 ^ 200 := by
    push_cast
    have : |(n : ℝ)| ≤ 2 ^ 53 := by exact_mod_cast hn
    exact le_trans this (by norm_num)
  have h1 := (ofRat_spec (n : ℚ) hb).1
  have h2 := rne64_dyadic n 0 hn (by norm_num)
  simp only [pow_zero, div_one] at h2
  rw [h1, h2]

instance : IntExact F64 where
  add_int a b n ha hb hn h := by
    obtain ⟨x, rfl⟩ := (F64.isFin_iff a).mp ha
    obtain ⟨y, rfl⟩ := (F64.isFin_iff b).mp hb
    have e : x + y = (n : ℚ) := by
      have : (x : ℝ) + (y : ℝ) = n := h
      exact_mod_cast this
    show (F64.ofRat (x + y)).toReal = n
    rw [e, ofRat_int n hn]; simp [F64.toReal]
  sub_int a b n ha hb hn h := by
    obtain ⟨x, rfl⟩ := (F64.isFin_iff a).mp ha
    obtain ⟨y, rfl⟩ := (F64.isFin_iff b).mp hb
    have e : x + -y = (n : ℚ) := by
      have : (x : ℝ) - (y : ℝ) = n := h
      rw [← sub_eq_add_neg]
      exact_mod_cast this
    show (F64.ofRat (x + -y)).toReal = n
    rw [e, ofRat_int n hn]; simp [F64.toReal]
  mul_int a b n ha hb hn h := by
    obtain ⟨x, rfl⟩ := (F64.isFin_iff a).mp ha
    obtain ⟨y, rfl⟩ := (F64.isFin_iff b).mp hb
    have e : x * y = (n : ℚ) := by
      have : (x : ℝ) * (y : ℝ) = n := h
      exact_mod_cast this
    show (F64.ofRat (x * y)).toReal = n
    rw [e, ofRat_int n hn]; simp [F64.toReal]
  div_int a b n ha hb hb0 hn h := by
    obtain ⟨x, rfl⟩ := (F64.isFin_iff a).mp ha
    obtain ⟨y, rfl⟩ := (F64.isFin_iff b).mp hb
    have hy : y ≠ 0 := by
      intro e; apply hb0; show ((y : ℚ) : ℝ) = 0; rw [e]; simp
    have e : x / y = (n : ℚ) := by
      have : (x : ℝ) / (y : ℝ) = n := h
      exact_mod_cast this
    have e2 : F64.div (.fin x) (.fin y) = F64.ofRat (x / y) := by simp [F64.div, hy]
    show (F64.div (.fin x) (.fin y)).toReal = n
    rw [e2, e, ofRat_int n hn]; simp [F64.toReal]

section
variable {F : Type} [FloatOps F] [LawfulFloat F] [IntExact F]

/-- The float is the whole number `n`. -/
def IsInt (a : F) (n : ℤ) : Prop := fin a ∧ val a = n

theorem int_le_200 {n : ℤ} (hn : |n| ≤ 2 ^ 53) : |(n : ℝ)| ≤ 2 ^ 200 := by
  have : |(n : ℝ)| ≤ 2 ^ 53 := by exact_mod_cast hn
  exact this.trans (by norm_num)

omit [IntExact F] in
theorem isInt_ofInt (n : ℤ) (hn : |n| ≤ 2 ^ 53) : IsInt (ofInt n : F) n := ofInt_spec n hn

theorem IsInt.add {a b : F} {m n : ℤ} (ha : IsInt a m) (hb : IsInt b n) (h : |m + n| ≤ 2 ^ 53) : IsInt (FloatOps.add a b) (m + n) := by
  have e : val a + val b = ((m + n : ℤ) : ℝ) := by rw [ha.2, hb.2]; push_cast; rfl
  exact ⟨(add_spec a b ha.1 hb.1 (by rw [e]; exact int_le_200 h)).1, IntExact.add_int a b _ ha.1 hb.1 h e⟩

theorem IsInt.sub {a b : F} {m n : ℤ} (ha : IsInt a m) (hb : IsInt b n) (h : |m - n| ≤ 2 ^ 53) : IsInt (FloatOps.sub a b) (m - n) := by
  have e : val a - val b = ((m - n : ℤ) : ℝ) := by rw [ha.2, hb.2]; push_cast; rfl
  exact ⟨(sub_spec a b ha.1 hb.1 (by rw [e]; exact int_le_200 h)).1, IntExact.sub_int a b _ ha.1 hb.1 h e⟩

theorem IsInt.mul {a b : F} {m n : ℤ} (ha : IsInt a m) (hb : IsInt b n) (h : |m * n| ≤ 2 ^ 53) : IsInt (FloatOps.mul a b) (m * n) := by
  have e : val a * val b = ((m * n : ℤ) : ℝ) := by rw [ha.2, hb.2]; push_cast; rfl
  exact ⟨(mul_spec a b ha.1 hb.1 (by rw [e]; exact int_le_200 h)).1, IntExact.mul_int a b _ ha.1 hb.1 h e⟩

/-- Zero times a finite number. -/
theorem IsInt.zero_mul {a b : F} (ha : IsInt a 0) (hb : fin b) : IsInt (FloatOps.mul a b) 0 := by
  have e : val a * val b = ((0 : ℤ) : ℝ) := by rw [ha.2]; push_cast; ring
  exact ⟨(mul_spec a b ha.1 hb (by rw [e]; exact int_le_200 (by norm_num))).1, IntExact.mul_int a b _ ha.1 hb (by norm_num) e⟩

theorem IsInt.mul_zero {a b : F} (ha : fin a) (hb : IsInt b 0) : IsInt (FloatOps.mul a b) 0 := by
  have e : val a * val b = ((0 : ℤ) : ℝ) := by rw [hb.2]; push_cast; ring
  exact ⟨(mul_spec a b ha hb.1 (by rw [e]; exact int_le_200 (by norm_num))).1, IntExact.mul_int a b _ ha hb.1 (by norm_num) e⟩

theorem IsInt.div {a b : F} {m n k : ℤ} (ha : IsInt a m) (hb : IsInt b n) (hn : n ≠ 0) (hk : m = k * n) (h : |k| ≤ 2 ^ 53) :
    IsInt (FloatOps.div a b) k := by
  have hn' : (n : ℝ) ≠ 0 := by exact_mod_cast hn
  have e : val a / val b = (k : ℝ) := by rw [ha.2, hb.2, hk]; push_cast; field_simp
  have hb0 : val b ≠ 0 := by rw [hb.2]; exact hn'
  exact ⟨(div_spec a b ha.1 hb.1 hb0 (by rw [e]; exact int_le_200 h)).1, IntExact.div_int a b _ ha.1 hb.1 hb0 h e⟩

omit [IntExact F] in
theorem isZeroF_iff (a : F) (ha : fin a) : isZeroF a = true ↔ val a = 0 := by
  have h0 := ofInt_spec (F := F) 0 (by norm_num)
  have e0 : val (ofInt 0 : F) = 0 := by rw [h0.2]; norm_num
  unfold isZeroF
  rw [Bool.and_eq_true, ge_spec a _ ha h0.1, ge_spec _ a h0.1 ha, e0]
  constructor
  · rintro ⟨h1, h2⟩; exact le_antisymm h2 h1
  · intro h; rw [h]; exact ⟨le_refl _, le_refl _⟩

omit [IntExact F] in
theorem IsInt.floor {a : F} {n : ℤ} (ha : IsInt a n) : IsInt (FloatOps.floor a) n := by
  have := floor_spec a ha.1
  refine ⟨this.1, ?_⟩
  rw [this.2, ha.2, Int.floor_intCast]

/-- Whole numbers have no fractional part. -/
theorem IsInt.fract {a : F} {n : ℤ} (ha : IsInt a n) (hn : |n| ≤ 2 ^ 53) : isZeroF (fractF a) = true := by
  have h0 : IsInt (ofInt 0 : F) 0 := isInt_ofInt 0 (by norm_num)
  have ht : IsInt (truncF a) n := by
    unfold truncF
    split_ifs with h
    · exact ha.floor
    · have h1 : IsInt (FloatOps.sub (ofInt 0 : F) a) (0 - n) := h0.sub ha (by rw [zero_sub, abs_neg]; exact hn)
      have h2 := h0.sub h1.floor (by rw [show (0 : ℤ) - (0 - n) = n by ring]; exact hn)
      rw [show (0 : ℤ) - (0 - n) = n by ring] at h2
      exact h2
  have : IsInt (fractF a) (n - n) := ha.sub ht (by simp)
  rw [sub_self] at this
  rw [isZeroF_iff _ this.1, this.2]
  norm_num

/-- `a` approximates `x` with a relative error of at most `k` units in the last place. -/
def Rel (k : ℝ) (a : F) (x : ℝ) : Prop := fin a ∧ |val a - x| ≤ k * ulp * |x|

omit [IntExact F] in
theorem IsInt.rel {a : F} {n : ℤ} (ha : IsInt a n) : Rel 0 a n := ⟨ha.1, by rw [ha.2]; simp⟩

omit [IntExact F] in
theorem Rel.mono {k l : ℝ} {a : F} {x : ℝ} (h : Rel k a x) (hkl : k ≤ l) : Rel l a x :=
  ⟨h.1, h.2.trans (mul_le_mul_of_nonneg_right (mul_le_mul_of_nonneg_right hkl (by unfold ulp; positivity)) (abs_nonneg _))⟩

theorem ulp_pos : 0 < ulp := by unfold ulp; positivity

theorem u_le_half_ulp : LawfulFloat.u F ≤ ulp / 2 := by
  refine (u_le (F := F)).trans (le_of_eq ?_)
  unfold ulp; norm_num

theorem omega_tiny : omega ≤ 1 / 2 ^ 100 / 2 ^ 20 := by unfold omega; norm_num

/-- The rounding error of one operation on top of a computed value near `x`. -/
theorem round_near (v A x j : ℝ) (hv : |v - A| ≤ LawfulFloat.u F * (|A| + omega)) (hA : |A - x| ≤ j * ulp * |x|) (hj0 : 0 ≤ j)
    (hj : j ≤ 2 ^ 20) (hx : 1 / 2 ^ 100 ≤ |x|) : |v - x| ≤ (j + 3 / 4) * ulp * |x| := by
  have hA' : |A| ≤ (1 + j * ulp) * |x| := by
    have := abs_add_le (A - x) x
    rw [sub_add_cancel] at this
    linarith
  have hju : j * ulp ≤ 1 / 2 ^ 32 := by
    refine (mul_le_mul_of_nonneg_right hj ulp_pos.le).trans ?_
    unfold ulp; norm_num
  have hA2 : |A| + omega ≤ (1 + 1 / 2 ^ 10) * |x| := by
    have h1 : (1 + j * ulp) * |x| ≤ (1 + 1 / 2 ^ 32) * |x| := mul_le_mul_of_nonneg_right (by linarith) (abs_nonneg x)
    have h2 := omega_tiny
    have h3 : omega ≤ 1 / 2 ^ 20 * |x| := by linarith
    norm_num at *
    linarith
  have hu := u_le_half_ulp (F := F)
  have h3 : |v - A| ≤ ulp / 2 * ((1 + 1 / 2 ^ 10) * |x|) :=
    hv.trans (mul_le_mul hu hA2 (by have := omega_pos; positivity) (by have := ulp_pos; positivity))
  have h4 := abs_sub_le v A x
  have h5 : 0 ≤ ulp * |x| := mul_nonneg ulp_pos.le (abs_nonneg x)
  norm_num at h3 ⊢
  linarith

theorem rel_mul_exact {A B x y k l : ℝ} (ha : |A - x| ≤ k * ulp * |x|) (hb : |B - y| ≤ l * ulp * |y|) (hk : 0 ≤ k) (hl : 0 ≤ l)
    (hk2 : k ≤ 2 ^ 18) (hl2 : l ≤ 2 ^ 18) : |A * B - x * y| ≤ (k + l + 1 / 8) * ulp * |x * y| := by
  have hp := ulp_pos
  have e : A * B - x * y = (A - x) * (B - y) + (A - x) * y + x * (B - y) := by ring
  rw [e]
  have h1 : |(A - x) * (B - y)| ≤ (k * ulp * |x|) * (l * ulp * |y|) := by
    rw [abs_mul]; exact mul_le_mul ha hb (abs_nonneg _) (by positivity)
  have h2 : |(A - x) * y| ≤ (k * ulp * |x|) * |y| := by
    rw [abs_mul]; exact mul_le_mul_of_nonneg_right ha (abs_nonneg _)
  have h3 : |x * (B - y)| ≤ |x| * (l * ulp * |y|) := by
    rw [abs_mul]; exact mul_le_mul_of_nonneg_left hb (abs_nonneg _)
  have h4 : k * l * ulp ≤ 1 / 8 := by
    have : k * l * ulp ≤ 2 ^ 18 * 2 ^ 18 * ulp := by gcongr
    refine this.trans ?_
    unfold ulp; norm_num
  have h5 : (k * ulp * |x|) * (l * ulp * |y|) ≤ 1 / 8 * ulp * |x * y| := by
    rw [abs_mul]
    have : (k * ulp * |x|) * (l * ulp * |y|) = (k * l * ulp) * (ulp * (|x| * |y|)) := by ring
    rw [this]
    calc (k * l * ulp) * (ulp * (|x| * |y|)) ≤ 1 / 8 * (ulp * (|x| * |y|)) := mul_le_mul_of_nonneg_right h4 (by positivity)
      _ = _ := by ring
  have h6 := abs_add_le ((A - x) * (B - y) + (A - x) * y) (x * (B - y))
  have h7 := abs_add_le ((A - x) * (B - y)) ((A - x) * y)
  have h8 : |x * y| = |x| * |y| := abs_mul x y
  rw [h8] at h5 ⊢
  nlinarith

theorem Rel.mul {a b : F} {x y k l : ℝ} (ha : Rel k a x) (hb : Rel l b y) (hk : 0 ≤ k) (hl : 0 ≤ l)
    (hk2 : k ≤ 2 ^ 18) (hl2 : l ≤ 2 ^ 18) (h0 : 1 / 2 ^ 100 ≤ |x * y|) (h1 : |x * y| ≤ 2 ^ 190) :
    Rel (k + l + 1) (FloatOps.mul a b) (x * y) := by
  have he := rel_mul_exact ha.2 hb.2 hk hl hk2 hl2
  have hm : |val a * val b| ≤ 2 ^ 200 := by
    have h3 := abs_add_le (val a * val b - x * y) (x * y)
    rw [sub_add_cancel] at h3
    have h4 : (k + l + 1 / 8) * ulp ≤ 1 := by
      have : (k + l + 1 / 8) * ulp ≤ (2 ^ 18 + 2 ^ 18 + 1 / 8) * ulp := by
        apply mul_le_mul_of_nonneg_right _ ulp_pos.le; linarith
      refine this.trans ?_
      unfold ulp; norm_num
    have h5 : (k + l + 1 / 8) * ulp * |x * y| ≤ 1 * |x * y| := mul_le_mul_of_nonneg_right h4 (abs_nonneg _)
    have : (2 : ℝ) ^ 190 + 2 ^ 190 ≤ 2 ^ 200 := by norm_num
    linarith
  have hs := mul_spec a b ha.1 hb.1 hm
  refine ⟨hs.1, ?_⟩
  have := round_near (F := F) _ _ _ _ hs.2 he (by positivity) (by norm_num at *; linarith) h0
  refine this.trans (mul_le_mul_of_nonneg_right (mul_le_mul_of_nonneg_right (by linarith) ulp_pos.le) (abs_nonneg _))

theorem rel_div_exact {A B x y k l : ℝ} (ha : |A - x| ≤ k * ulp * |x|) (hb : |B - y| ≤ l * ulp * |y|) (hk : 0 ≤ k) (hl : 0 ≤ l)
    (hk2 : k ≤ 2 ^ 16) (hl2 : l ≤ 2 ^ 16) (hy : y ≠ 0) : B ≠ 0 ∧ |A / B - x / y| ≤ (k + l + 1 / 8) * ulp * |x / y| := by
  have hp := ulp_pos
  have hy' : 0 < |y| := abs_pos.mpr hy
  have hlu : l * ulp ≤ 1 / 2 ^ 32 := by
    have : l * ulp ≤ 2 ^ 16 * ulp := by gcongr
    refine this.trans ?_
    unfold ulp; norm_num
  have hBy : (1 - 1 / 2 ^ 32) * |y| ≤ |B| := by
    have h1 := abs_sub_abs_le_abs_sub y B
    rw [abs_sub_comm y B] at h1
    have h2 : l * ulp * |y| ≤ 1 / 2 ^ 32 * |y| := mul_le_mul_of_nonneg_right hlu hy'.le
    linarith
  have hB : 0 < |B| := lt_of_lt_of_le (by positivity) hBy
  have hB0 : B ≠ 0 := abs_pos.mp hB
  refine ⟨hB0, ?_⟩
  have e : A / B - x / y = ((A - x) * y - x * (B - y)) / (B * y) := by field_simp; ring
  rw [e, abs_div, abs_mul B y, div_le_iff₀ (by positivity), abs_div x y]
  have h1 : |(A - x) * y - x * (B - y)| ≤ (k * ulp * |x|) * |y| + |x| * (l * ulp * |y|) := by
    refine (abs_sub _ _).trans ?_
    rw [abs_mul, abs_mul]
    exact add_le_add (mul_le_mul_of_nonneg_right ha (abs_nonneg _)) (mul_le_mul_of_nonneg_left hb (abs_nonneg _))
  refine h1.trans ?_
  have e2 : (k + l + 1 / 8) * ulp * (|x| / |y|) * (|B| * |y|) = (k + l + 1 / 8) * ulp * |x| * |B| := by field_simp
  rw [e2]
  have h3 : (k + l) * |y| ≤ (k + l + 1 / 8) * |B| := by
    have h4 : (k + l + 1 / 8) * ((1 - 1 / 2 ^ 32) * |y|) ≤ (k + l + 1 / 8) * |B| := mul_le_mul_of_nonneg_left hBy (by positivity)
    refine le_trans ?_ h4
    have h5 : (k + l) ≤ (k + l + 1 / 8) * (1 - 1 / 2 ^ 32) := by norm_num at hk2 hl2 ⊢; linarith
    calc (k + l) * |y| ≤ (k + l + 1 / 8) * (1 - 1 / 2 ^ 32) * |y| := mul_le_mul_of_nonneg_right h5 hy'.le
      _ = _ := by ring
  calc (k * ulp * |x|) * |y| + |x| * (l * ulp * |y|) = (ulp * |x|) * ((k + l) * |y|) := by ring
    _ ≤ (ulp * |x|) * ((k + l + 1 / 8) * |B|) := mul_le_mul_of_nonneg_left h3 (by positivity)
    _ = _ := by ring

theorem Rel.div {a b : F} {x y k l : ℝ} (ha : Rel k a x) (hb : Rel l b y) (hk : 0 ≤ k) (hl : 0 ≤ l)
    (hk2 : k ≤ 2 ^ 16) (hl2 : l ≤ 2 ^ 16) (hy : y ≠ 0) (h0 : 1 / 2 ^ 100 ≤ |x / y|) (h1 : |x / y| ≤ 2 ^ 190) :
    Rel (k + l + 1) (FloatOps.div a b) (x / y) := by
  obtain ⟨hB, he⟩ := rel_div_exact ha.2 hb.2 hk hl hk2 hl2 hy
  have hm : |val a / val b| ≤ 2 ^ 200 := by
    have h3 := abs_add_le (val a / val b - x / y) (x / y)
    rw [sub_add_cancel] at h3
    have h4 : (k + l + 1 / 8) * ulp ≤ 1 := by
      have : (k + l + 1 / 8) * ulp ≤ (2 ^ 16 + 2 ^ 16 + 1 / 8) * ulp := by
        apply mul_le_mul_of_nonneg_right _ ulp_pos.le; linarith
      refine this.trans ?_
      unfold ulp; norm_num
    have h5 : (k + l + 1 / 8) * ulp * |x / y| ≤ 1 * |x / y| := mul_le_mul_of_nonneg_right h4 (abs_nonneg _)
    have : (2 : ℝ) ^ 190 + 2 ^ 190 ≤ 2 ^ 200 := by norm_num
    linarith
  have hs := div_spec a b ha.1 hb.1 hB hm
  refine ⟨hs.1, ?_⟩
  have := round_near (F := F) _ _ _ _ hs.2 he (by positivity) (by norm_num at *; linarith) h0
  refine this.trans (mul_le_mul_of_nonneg_right (mul_le_mul_of_nonneg_right (by linarith) ulp_pos.le) (abs_nonneg _))

end
end Sia
