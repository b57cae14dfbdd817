import Verif.Model.Steganography
import Verif.Model.Quantization
import Verif.Lemmas.FloatInstances

/-! C55: integer arithmetic done in `f64` is exact. The model uses integer division in these places; here the `f64` expressions
are evaluated in IEEE binary64. -/
namespace Sia
open FloatOps

theorem f64_ofNat (n : Nat) (h : n ≤ 2 ^ 53) : (ofInt (n : ℤ) : F64) = F64.fin (n : ℚ) := by
  show F64.ofRat ((n : ℤ) : ℚ) = _
  have e := rne64_dyadic (n : ℤ) 0 (by rw [Nat.abs_cast]; exact_mod_cast h) (by norm_num)
  simp only [pow_zero, div_one, Int.cast_natCast] at e
  unfold F64.ofRat
  dsimp only
  rw [Int.cast_natCast, e, if_neg]
  rw [not_le, Nat.abs_cast]
  calc (n : ℚ) ≤ 2 ^ 53 := by exact_mod_cast h
    _ < 2 ^ 1024 := by gcongr <;> norm_num

/-- Rounding a quotient of integers below `2^53` to binary64 does not move it across an integer. -/
theorem rne64_quotient (a b : Nat) (ha : a < 2 ^ 53) (hb : 0 < b) (hb2 : b < 2 ^ 53) :
    ((a / b : ℕ) : ℚ) ≤ rne64 ((a : ℚ) / b) ∧ rne64 ((a : ℚ) / b) < (a / b : ℕ) + 1 ∧
      (b ∣ a → rne64 ((a : ℚ) / b) = (a / b : ℕ)) ∧ (¬ b ∣ a → ((a / b : ℕ) : ℚ) < rne64 ((a : ℚ) / b)) := by
  have hbq : (0 : ℚ) < b := by exact_mod_cast hb
  have haq : (a : ℚ) < 2 ^ 53 := by exact_mod_cast ha
  have hdm : ((a / b : ℕ) : ℚ) * b + ((a % b : ℕ) : ℚ) = a := by
    exact_mod_cast (by rw [mul_comm]; exact Nat.div_add_mod a b : a / b * b + a % b = a)
  have hr : ((a % b : ℕ) : ℚ) + 1 ≤ b := by exact_mod_cast Nat.mod_lt a hb
  have hx : (a : ℚ) / b = (a / b : ℕ) + ((a % b : ℕ) : ℚ) / b := by
    rw [← hdm]; field_simp
  have hxs : (a : ℚ) / b ≤ (a / b : ℕ) + 1 - 1 / b := by
    rw [hx]
    have : ((a % b : ℕ) : ℚ) / b ≤ 1 - 1 / b := by
      rw [div_le_iff₀ hbq]; field_simp; linarith
    linarith
  have herr : |rne64 ((a : ℚ) / b) - (a : ℚ) / b| < 1 / b := by
    rcases rne64_err ((a : ℚ) / b) with h | h
    · refine lt_of_le_of_lt h ?_
      rw [abs_of_nonneg (by positivity)]
      rw [← mul_div_assoc, div_lt_div_iff_of_pos_right hbq]
      rw [one_div, inv_mul_lt_iff₀ (by norm_num)]
      linarith
    · refine lt_of_le_of_lt h ?_
      have : (b : ℚ) < 2 ^ 53 := by exact_mod_cast hb2
      apply one_div_lt_one_div_of_lt hbq
      exact this.trans (by gcongr <;> norm_num)
  obtain ⟨e1, e2⟩ := abs_lt.mp herr
  have hdiv : b ∣ a → rne64 ((a : ℚ) / b) = (a / b : ℕ) := by
    intro hd
    have h0 : a % b = 0 := Nat.mod_eq_zero_of_dvd hd
    rw [h0] at hx
    rw [hx]
    have hle : a / b ≤ a := Nat.div_le_self a b
    generalize a / b = q at hle ⊢
    have e := rne64_dyadic (q : ℤ) 0 (by rw [Nat.abs_cast]; exact_mod_cast (by omega : q ≤ 2 ^ 53)) (by norm_num)
    simpa using e
  have hnd : ¬ b ∣ a → ((a / b : ℕ) : ℚ) < rne64 ((a : ℚ) / b) := by
    intro hd
    have h1 : 1 ≤ a % b := by
      rcases Nat.eq_zero_or_pos (a % b) with h | h
      · exact absurd (Nat.dvd_of_mod_eq_zero h) hd
      · exact h
    have h1q : (1 : ℚ) ≤ ((a % b : ℕ) : ℚ) := by exact_mod_cast h1
    have : 1 / (b : ℚ) ≤ ((a % b : ℕ) : ℚ) / b := (div_le_div_iff_of_pos_right hbq).mpr h1q
    linarith
  refine ⟨?_, ?_, hdiv, hnd⟩
  · by_cases hd : b ∣ a
    · exact (hdiv hd).ge
    · exact (hnd hd).le
  · linarith

theorem ofRat_quotient (a b : Nat) (ha : a < 2 ^ 53) (hb : 0 < b) (hb2 : b < 2 ^ 53) :
    F64.ofRat ((a : ℚ) / b) = F64.fin (rne64 ((a : ℚ) / b)) := by
  obtain ⟨h1, h2, _⟩ := rne64_quotient a b ha hb hb2
  unfold F64.ofRat
  dsimp only
  rw [if_neg]
  rw [not_le, abs_of_nonneg (le_trans (by positivity) h1)]
  have : ((a / b : ℕ) : ℚ) + 1 ≤ 2 ^ 53 := by
    have : a / b + 1 ≤ 2 ^ 53 := lt_of_le_of_lt (Nat.div_le_self a b) ha
    exact_mod_cast this
  calc rne64 ((a : ℚ) / b) < 2 ^ 53 := by linarith
    _ < 2 ^ 1024 := by gcongr <;> norm_num

theorem f64_div_nat (a b : Nat) (ha : a < 2 ^ 53) (hb : 0 < b) (hb2 : b < 2 ^ 53) :
    (FloatOps.div (ofInt (a : ℤ)) (ofInt (b : ℤ)) : F64) = F64.fin (rne64 ((a : ℚ) / b)) := by
  rw [f64_ofNat a (by omega), f64_ofNat b (by omega), ← ofRat_quotient a b ha hb hb2]
  show (if (b : ℚ) = 0 then _ else _) = _
  rw [if_neg (by exact_mod_cast (by omega : b ≠ 0))]

/-- C55: `(a as f64 / b as f64).floor() as usize` is the integer quotient, for all `a < 2^53` and `0 < b < 2^53`
(steganography.rs:24, zernike/src/calc.rs:49 and 75; with `b = 8`: steganography.rs:19). -/
theorem double_quotient_floor (a b : Nat) (ha : a < 2 ^ 53) (hb : 0 < b) (hb2 : b < 2 ^ 53) :
    FloatOps.truncSat 0 (2 ^ 64 - 1) (FloatOps.floor (FloatOps.div (ofInt (a : ℤ)) (ofInt (b : ℤ)) : F64)) = ((a / b : ℕ) : ℤ) := by
  obtain ⟨h1, h2, _⟩ := rne64_quotient a b ha hb hb2
  rw [f64_div_nat a b ha hb hb2]
  have hfl : ⌊rne64 ((a : ℚ) / b)⌋ = ((a / b : ℕ) : ℤ) := by
    rw [Int.floor_eq_iff]
    exact ⟨by exact_mod_cast h1, by exact_mod_cast h2⟩
  show clampZ 0 (2 ^ 64 - 1) (truncZ ((⌊rne64 ((a : ℚ) / b)⌋ : ℤ) : ℚ)) = _
  rw [hfl]
  unfold truncZ
  rw [if_pos (by positivity), Int.floor_intCast]
  have hle : a / b ≤ a := Nat.div_le_self a b
  unfold clampZ
  generalize a / b = q at hle ⊢
  rw [if_neg (by omega), if_neg (by omega)]

/-- C55: rounding up: `(a as f64 / 8.).ceil()` of a quotient is the integer quotient rounded up
(three-bit-quantization/src/lib.rs:11, watermarking/src/watermark.rs:64). -/
theorem double_quotient_ceil (a b : Nat) (ha : a < 2 ^ 53) (hb : 0 < b) (hb2 : b < 2 ^ 53) :
    ∃ q : ℚ, (FloatOps.div (ofInt (a : ℤ)) (ofInt (b : ℤ)) : F64) = F64.fin q ∧ ⌈q⌉ = (((a + b - 1) / b : ℕ) : ℤ) := by
  obtain ⟨h1, h2, h3, h4⟩ := rne64_quotient a b ha hb hb2
  refine ⟨_, f64_div_nat a b ha hb hb2, ?_⟩
  by_cases hd : b ∣ a
  · rw [h3 hd]
    obtain ⟨k, rfl⟩ := hd
    rw [Nat.mul_div_cancel_left _ hb, Int.ceil_natCast,
      show b * k + b - 1 = b * k + (b - 1) by omega, Nat.mul_add_div hb, Nat.div_eq_of_lt (by omega), add_zero]
  · have e : (a + b - 1) / b = a / b + 1 := by
      have h0 : 1 ≤ a % b := by
        rcases Nat.eq_zero_or_pos (a % b) with h | h
        · exact absurd (Nat.dvd_of_mod_eq_zero h) hd
        · exact h
      have hm := Nat.mod_lt a hb
      have e1 := Nat.div_add_mod a b
      have : a + b - 1 = b * (a / b + 1) + (a % b - 1) := by rw [Nat.mul_add]; omega
      rw [this, Nat.mul_add_div hb, Nat.div_eq_of_lt (show a % b - 1 < b by omega), add_zero]
    have h5 := h4 hd
    rw [e, Int.ceil_eq_iff]
    generalize a / b = q at *
    push_cast
    constructor <;> linarith

/-- C55: the column and row of a bit are what the code computes in `f64`, and so is the capacity. -/
theorem columnAndRow_double (offset width height : Nat) (ho : offset < 2 ^ 53) (hh : 0 < height) (hh2 : height < 2 ^ 53) :
    ((getColumnAndRow offset width height).2 : ℤ) =
      FloatOps.truncSat 0 (2 ^ 64 - 1) (FloatOps.floor (FloatOps.div (ofInt (offset : ℤ)) (ofInt (height : ℤ)) : F64)) :=
  (double_quotient_floor offset height ho hh hh2).symm

theorem getCapacity_double (width height : Nat) (h : width * height < 2 ^ 53) :
    (getCapacity width height : ℤ) =
      FloatOps.truncSat 0 (2 ^ 64 - 1) (FloatOps.floor (FloatOps.div (ofInt ((width * height : ℕ) : ℤ)) (ofInt ((8 : ℕ) : ℤ)) : F64)) :=
  (double_quotient_floor _ 8 h (by norm_num) (by norm_num)).symm

example : FloatOps.truncSat 0 (2 ^ 64 - 1) (FloatOps.floor (FloatOps.div (ofInt ((4095 : ℕ) : ℤ)) (ofInt ((64 : ℕ) : ℤ)) : F64)) = 63 :=
  double_quotient_floor 4095 64 (by norm_num) (by norm_num) (by norm_num)

end Sia
