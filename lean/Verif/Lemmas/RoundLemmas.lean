import Verif.Lemmas.FloatInstances

/-! Facts about rounding to binary64: representable numbers, monotonicity. -/
namespace Sia

/-- The finite binary64 numbers, ignoring overflow: integer multiples of a power of two with at most 53 significant bits. -/
def Rep64 (y : ℚ) : Prop := ∃ (m e : ℤ), |m| ≤ 2 ^ 53 ∧ -1074 ≤ e ∧ y = (m : ℚ) * (2 : ℚ) ^ e

theorem rneInt_le_of_le (x : ℚ) (z : ℤ) (h : x ≤ z) : rneInt x ≤ z := by
  have h1 := Int.floor_le x
  have h2 : ⌊x⌋ ≤ z := by
    have := Int.floor_le_floor h
    rwa [Int.floor_intCast] at this
  rcases lt_or_eq_of_le h2 with h3 | h3
  · unfold rneInt
    dsimp only
    split_ifs <;> omega
  · have : x = z := le_antisymm h (by rw [← h3]; exact h1)
    rw [this, rneInt_int]

theorem le_rneInt_of_le (x : ℚ) (z : ℤ) (h : (z : ℚ) ≤ x) : z ≤ rneInt x := by
  have h2 : z ≤ ⌊x⌋ := Int.le_floor.mpr h
  unfold rneInt
  dsimp only
  split_ifs <;> omega

theorem rne64_le_multiple (x : ℚ) (h0 : x ≠ 0) (z : ℤ) (h : x ≤ z * (2 : ℚ) ^ ulpExp x) : rne64 x ≤ z * (2 : ℚ) ^ ulpExp x := by
  have hp : (0 : ℚ) < (2 : ℚ) ^ ulpExp x := zpow_pos (by norm_num) _
  unfold rne64
  rw [if_neg h0]
  apply mul_le_mul_of_nonneg_right _ hp.le
  exact_mod_cast rneInt_le_of_le _ z ((div_le_iff₀ hp).mpr h)

theorem multiple_le_rne64 (x : ℚ) (h0 : x ≠ 0) (z : ℤ) (h : z * (2 : ℚ) ^ ulpExp x ≤ x) : z * (2 : ℚ) ^ ulpExp x ≤ rne64 x := by
  have hp : (0 : ℚ) < (2 : ℚ) ^ ulpExp x := zpow_pos (by norm_num) _
  unfold rne64
  rw [if_neg h0]
  apply mul_le_mul_of_nonneg_right _ hp.le
  exact_mod_cast le_rneInt_of_le _ z ((le_div_iff₀ hp).mpr h)

/-- A representable number is a multiple of the unit at `x`, or is at most `2^52` units in size while `x` is at least that. -/
theorem rep64_cases (x y : ℚ) (h0 : x ≠ 0) (hy : Rep64 y) :
    (∃ z : ℤ, y = z * (2 : ℚ) ^ ulpExp x) ∨ (|y| ≤ (2 ^ 52 : ℤ) * (2 : ℚ) ^ ulpExp x ∧ ((2 ^ 52 : ℤ) : ℚ) * (2 : ℚ) ^ ulpExp x ≤ |x|) := by
  obtain ⟨m, e, hm, he, rfl⟩ := hy
  rcases le_or_gt (ulpExp x) e with h | h
  · left
    refine ⟨m * 2 ^ (e - ulpExp x).toNat, ?_⟩
    push_cast
    rw [mul_assoc, ← zpow_natCast (2 : ℚ), ← zpow_add₀ (by norm_num), Int.toNat_of_nonneg (by omega)]
    congr 2
    ring
  · right
    have hu : ulpExp x = Int.log 2 |x| - 52 := by
      unfold ulpExp at h ⊢
      rcases le_total (Int.log 2 |x| - 52) (-1074) with h' | h'
      · rw [max_eq_right h'] at h; omega
      · exact max_eq_left h'
    constructor
    · rw [abs_mul, abs_of_pos (show (0 : ℚ) < (2 : ℚ) ^ e from zpow_pos (by norm_num) _)]
      have h1 : (|m| : ℤ) ≤ (2 ^ 53 : ℤ) := hm
      have h1' : |(m : ℚ)| ≤ 2 ^ 53 := by exact_mod_cast h1
      calc |(m : ℚ)| * (2 : ℚ) ^ e ≤ 2 ^ 53 * (2 : ℚ) ^ e := mul_le_mul_of_nonneg_right h1' (zpow_pos (by norm_num) _).le
        _ = 2 ^ 52 * (2 : ℚ) ^ (e + 1) := by rw [zpow_add₀ (by norm_num)]; ring
        _ ≤ 2 ^ 52 * (2 : ℚ) ^ ulpExp x := mul_le_mul_of_nonneg_left
            (zpow_le_zpow_right₀ (by norm_num) (by omega)) (by norm_num)
        _ = _ := by push_cast; rfl
    · rw [hu]
      have := Int.zpow_log_le_self (b := 2) (by norm_num) (abs_pos.mpr h0)
      refine le_trans (le_of_eq ?_) this
      rw [show ((2 ^ 52 : ℤ) : ℚ) = (2 : ℚ) ^ (52 : ℤ) by norm_num, ← zpow_add₀ (by norm_num)]
      push_cast
      congr 1
      ring

/-- Rounding never crosses a representable number. -/
theorem rne64_le_of_le (x y : ℚ) (hy : Rep64 y) (h : x ≤ y) : rne64 x ≤ y := by
  by_cases h0 : x = 0
  · subst h0; simpa [rne64] using h
  rcases rep64_cases x y h0 hy with ⟨z, rfl⟩ | ⟨h1, h2⟩
  · exact rne64_le_multiple x h0 z h
  · rcases lt_or_gt_of_ne h0 with hneg | hpos
    · rw [abs_of_neg hneg] at h2
      have := rne64_le_multiple x h0 (-(2 ^ 52)) (by push_cast at h2 ⊢; linarith)
      have h3 := (abs_le.mp h1).1
      push_cast at this h3
      linarith
    · rw [abs_of_pos hpos] at h2
      have hxy := (abs_le.mp h1).2
      have hx : x = ((2 ^ 52 : ℤ) : ℚ) * (2 : ℚ) ^ ulpExp x := le_antisymm (h.trans hxy) h2
      have := rne64_le_multiple x h0 (2 ^ 52) (le_of_eq hx)
      rw [← hx] at this
      exact this.trans h

theorem le_rne64_of_le (x y : ℚ) (hy : Rep64 y) (h : y ≤ x) : y ≤ rne64 x := by
  by_cases h0 : x = 0
  · subst h0; simpa [rne64] using h
  rcases rep64_cases x y h0 hy with ⟨z, rfl⟩ | ⟨h1, h2⟩
  · exact multiple_le_rne64 x h0 z h
  · rcases lt_or_gt_of_ne h0 with hneg | hpos
    · rw [abs_of_neg hneg] at h2
      have hxy := (abs_le.mp h1).1
      have hx : x = ((-(2 ^ 52) : ℤ) : ℚ) * (2 : ℚ) ^ ulpExp x := by
        push_cast at h2 hxy ⊢
        linarith
      have := multiple_le_rne64 x h0 (-(2 ^ 52)) (le_of_eq hx.symm)
      rw [← hx] at this
      exact h.trans this
    · rw [abs_of_pos hpos] at h2
      have := multiple_le_rne64 x h0 (2 ^ 52) h2
      exact ((abs_le.mp h1).2).trans this

/-- Representable numbers are not changed by rounding. -/
theorem rne64_rep (y : ℚ) (hy : Rep64 y) : rne64 y = y :=
  le_antisymm (rne64_le_of_le y y hy le_rfl) (le_rne64_of_le y y hy le_rfl)

/-- The result of rounding is representable. -/
theorem rep64_rne64 (x : ℚ) : Rep64 (rne64 x) := by
  by_cases h0 : x = 0
  · subst h0
    exact ⟨0, 0, by norm_num, by norm_num, by simp [rne64]⟩
  refine ⟨rneInt (x / (2 : ℚ) ^ ulpExp x), ulpExp x, ?_, le_max_right _ _, by unfold rne64; rw [if_neg h0]⟩
  have hp : (0 : ℚ) < (2 : ℚ) ^ ulpExp x := zpow_pos (by norm_num) _
  have hx : |x| < 2 ^ 53 * (2 : ℚ) ^ ulpExp x := by
    have h1 := Int.lt_zpow_succ_log_self (b := 2) (by norm_num) |x|
    refine lt_of_lt_of_le h1 ?_
    rw [show (2 : ℚ) ^ 53 = (2 : ℚ) ^ (53 : ℤ) by norm_cast, ← zpow_add₀ (by norm_num)]
    have : Int.log 2 |x| - 52 ≤ ulpExp x := le_max_left _ _
    push_cast
    exact zpow_le_zpow_right₀ (by norm_num) (by omega)
  obtain ⟨l, r⟩ := abs_lt.mp hx
  have h1 := rneInt_le_of_le (x / (2 : ℚ) ^ ulpExp x) (2 ^ 53) (by rw [div_le_iff₀ hp]; push_cast; linarith)
  have h2 := le_rneInt_of_le (x / (2 : ℚ) ^ ulpExp x) (-(2 ^ 53)) (by rw [le_div_iff₀ hp]; push_cast; linarith)
  exact abs_le.mpr ⟨h2, h1⟩

end Sia
