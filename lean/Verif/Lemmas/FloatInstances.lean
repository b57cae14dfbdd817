import Verif.Spec.LawfulFloat
import Verif.Model.FloatReal
import Mathlib.Tactic.Linarith
import Mathlib.Tactic.NormNum
import Mathlib.Tactic.FieldSimp
import Mathlib.Data.Rat.Cast.Order
import Mathlib.Tactic.Positivity

namespace Sia

set_option exponentiation.threshold 2000

theorem omega_pos : 0 < omega := by unfold omega; positivity

theorem clampZ_mem (lo hi z : ℤ) (h : lo ≤ hi) : lo ≤ clampZ lo hi z ∧ clampZ lo hi z ≤ hi := by
  unfold clampZ; split_ifs <;> omega

/-! ### Real numbers -/

noncomputable instance : LawfulFloat ℝ where
  fin _ := True
  val x := x
  u := 0
  u_nonneg := le_refl _
  u_le := by positivity
  ofInt_spec n _ := ⟨trivial, rfl⟩
  ofInt_err n _ := ⟨trivial, by show |(n : ℝ) - n| ≤ _; simp⟩
  lit_dyadic m k _ _ := ⟨trivial, by show (((m : ℚ) / 2 ^ k : ℚ) : ℝ) = _; push_cast; rfl⟩
  lit_err q _ := ⟨trivial, by show |(q : ℝ) - q| ≤ _; simp⟩
  add_spec a b _ _ _ := ⟨trivial, by show |(a + b) - (a + b)| ≤ _; simp⟩
  sub_spec a b _ _ _ := ⟨trivial, by show |(a - b) - (a - b)| ≤ _; simp⟩
  mul_spec a b _ _ _ := ⟨trivial, by show |(a * b) - (a * b)| ≤ _; simp⟩
  div_spec a b _ _ _ _ := ⟨trivial, by show |(a / b) - (a / b)| ≤ _; simp⟩
  round_spec a _ := ⟨trivial, rfl⟩
  floor_spec a _ := ⟨trivial, rfl⟩
  ge_spec a b _ _ := by show (by classical exact decide (b ≤ a)) = true ↔ _; simp
  truncSat_spec lo hi a _ := rfl
  truncSat_range lo hi a h1 h2 := clampZ_mem lo hi _ (h1.trans h2)
  frac_spec := ⟨trivial, by show |1 / Real.sqrt 2 - 1 / Real.sqrt 2| ≤ _; simp⟩

/-! ### Rounding to binary64 -/

theorem rneInt_err (x : ℚ) : |(rneInt x : ℚ) - x| ≤ 1 / 2 := by
  have h1 := Int.floor_le x
  have h2 := Int.lt_floor_add_one x
  unfold rneInt
  dsimp only
  split_ifs <;> rw [abs_le] <;> push_cast <;> constructor <;> linarith

theorem rneInt_int (z : ℤ) : rneInt (z : ℚ) = z := by
  unfold rneInt; simp

theorem rne64_err (x : ℚ) : |rne64 x - x| ≤ 1 / 2 ^ 53 * |x| ∨ |rne64 x - x| ≤ 1 / 2 ^ 1075 := by
  unfold rne64
  split_ifs with h0
  · left; simp [h0]
  have hx : 0 < |x| := abs_pos.mpr h0
  have hp : (0 : ℚ) < 2 ^ ulpExp x := zpow_pos (by norm_num) _
  have h := rneInt_err (x / 2 ^ ulpExp x)
  have hE : |(rneInt (x / 2 ^ ulpExp x) : ℚ) * 2 ^ ulpExp x - x| ≤ 1 / 2 * 2 ^ ulpExp x := by
    have : (rneInt (x / 2 ^ ulpExp x) : ℚ) * 2 ^ ulpExp x - x =
        ((rneInt (x / 2 ^ ulpExp x) : ℚ) - x / 2 ^ ulpExp x) * 2 ^ ulpExp x := by field_simp
    rw [this, abs_mul, abs_of_pos hp]
    exact mul_le_mul_of_nonneg_right h hp.le
  by_cases hc : Int.log 2 |x| - 52 ≤ -1074
  · right
    have : ulpExp x = -1074 := by unfold ulpExp; omega
    rw [this] at hE ⊢
    refine le_trans hE (le_of_eq ?_)
    rw [show (-1074 : ℤ) = -((1074 : ℕ) : ℤ) by norm_num, zpow_neg, zpow_natCast]
    rw [one_div, one_div, ← mul_inv, ← pow_succ']
  · left
    have : ulpExp x = Int.log 2 |x| - 52 := by unfold ulpExp; omega
    rw [this] at hE ⊢
    refine le_trans hE ?_
    have hl := Int.zpow_log_le_self (b := 2) (by norm_num) hx
    push_cast at hl
    rw [zpow_sub₀ (by norm_num)]
    have : (1 : ℚ) / 2 * (2 ^ Int.log 2 |x| / 2 ^ (52 : ℤ)) = 1 / 2 ^ 53 * 2 ^ Int.log 2 |x| := by
      rw [show (52 : ℤ) = ((52 : ℕ) : ℤ) by norm_num, zpow_natCast]; ring
    rw [this]
    exact mul_le_mul_of_nonneg_left hl (by positivity)

/-- Rounding is exact on multiples of the unit in the last place. -/
theorem rne64_exact (x : ℚ) (z : ℤ) (h : x = z * 2 ^ ulpExp x) : rne64 x = x := by
  unfold rne64
  split_ifs with h0
  · exact h0.symm
  · have hp : (2 : ℚ) ^ ulpExp x ≠ 0 := (zpow_pos (by norm_num) _).ne'
    have : x / 2 ^ ulpExp x = z := by rw [div_eq_iff hp]; exact h
    rw [this, rneInt_int]; exact h.symm

/-- Dyadic numbers with at most 53 significant bits and moderate exponent are representable. -/
theorem rne64_dyadic (m : ℤ) (k : ℕ) (hm : |m| ≤ 2 ^ 53) (hk : k ≤ 100) : rne64 ((m : ℚ) / 2 ^ k) = (m : ℚ) / 2 ^ k := by
  by_cases h0 : m = 0
  · subst h0; simp [rne64]
  have hx : (m : ℚ) / 2 ^ k ≠ 0 := by
    apply div_ne_zero
    · exact_mod_cast h0
    · positivity
  have hm1 : (1 : ℚ) ≤ |(m : ℚ)| := by
    have : 1 ≤ |m| := Int.one_le_abs h0
    exact_mod_cast this
  have habs : |(m : ℚ) / 2 ^ k| = |(m : ℚ)| / 2 ^ k := by rw [abs_div, abs_of_pos (by positivity : (0 : ℚ) < 2 ^ k)]
  have hmQ : |(m : ℚ)| ≤ 2 ^ 53 := by exact_mod_cast hm
  by_cases hlt : |(m : ℚ)| = 2 ^ 53
  · -- the extreme case: a power of two
    have hlog : Int.log 2 |(m : ℚ) / 2 ^ k| = 53 - k := by
      rw [habs, hlt]
      have : (2 : ℚ) ^ 53 / 2 ^ k = ((2 : ℕ) : ℚ) ^ ((53 : ℤ) - k) := by
        push_cast
        rw [zpow_sub₀ (by norm_num), zpow_natCast, show (53 : ℤ) = ((53 : ℕ) : ℤ) by norm_num, zpow_natCast]
      rw [this, Int.log_zpow (by norm_num)]
    have hu : ulpExp ((m : ℚ) / 2 ^ k) = 1 - k := by unfold ulpExp; rw [hlog]; omega
    have hm' : m = 2 ^ 53 ∨ m = -2 ^ 53 := by
      have : |m| = 2 ^ 53 := by exact_mod_cast hlt
      rcases abs_choice m with h | h <;> rw [h] at this <;> omega
    have hz : ∃ z : ℤ, m = 2 * z := by rcases hm' with h | h <;> [exact ⟨2 ^ 52, by omega⟩; exact ⟨-2 ^ 52, by omega⟩]
    obtain ⟨z, hz⟩ := hz
    apply rne64_exact _ z
    rw [hu, hz, zpow_sub₀ (by norm_num), zpow_natCast]; push_cast; ring
  · have hlt' : |(m : ℚ)| < 2 ^ 53 := lt_of_le_of_ne hmQ hlt
    have hlog : Int.log 2 |(m : ℚ) / 2 ^ k| < 53 - k := by
      rw [habs]
      rw [← Int.lt_zpow_iff_log_lt (by norm_num) (by positivity)]
      push_cast
      rw [zpow_sub₀ (by norm_num), zpow_natCast, show (53 : ℤ) = ((53 : ℕ) : ℤ) by norm_num, zpow_natCast]
      exact div_lt_div_of_pos_right hlt' (by positivity)
    have hu : ulpExp ((m : ℚ) / 2 ^ k) ≤ -k := by unfold ulpExp; omega
    obtain ⟨j, hj⟩ := Int.le.dest hu
    apply rne64_exact _ (m * 2 ^ j)
    have : ulpExp ((m : ℚ) / 2 ^ k) = -k - j := by omega
    rw [this, zpow_sub₀ (by norm_num), zpow_neg, zpow_natCast, zpow_natCast]
    push_cast
    field_simp

/-- Rounding in the form of the standard model. -/
theorem ofRat_spec (x : ℚ) (h : |(x : ℝ)| ≤ 2 ^ 200) :
    F64.ofRat x = .fin (rne64 x) ∧ |((rne64 x : ℚ) : ℝ) - x| ≤ 1 / 2 ^ 53 * (|(x : ℝ)| + omega) := by
  have he := rne64_err x
  have herr : |((rne64 x : ℚ) : ℝ) - x| ≤ 1 / 2 ^ 53 * (|(x : ℝ)| + omega) := by
    have hw : (1 : ℝ) / 2 ^ 1075 ≤ 1 / 2 ^ 53 * omega := by
      unfold omega
      rw [div_mul_div_comm, one_mul, ← pow_add]
      exact one_div_le_one_div_of_le (by positivity) (pow_le_pow_right₀ (by norm_num) (by norm_num))
    have hw0 := omega_pos
    rcases he with he | he
    · have : ((|rne64 x - x| : ℚ) : ℝ) ≤ ((1 / 2 ^ 53 * |x| : ℚ) : ℝ) := by exact_mod_cast he
      push_cast at this
      refine le_trans this ?_
      have : (0 : ℝ) ≤ 1 / 2 ^ 53 * omega := by positivity
      linarith
    · have : ((|rne64 x - x| : ℚ) : ℝ) ≤ ((1 / 2 ^ 1075 : ℚ) : ℝ) := by exact_mod_cast he
      push_cast at this
      refine le_trans this (le_trans hw ?_)
      have : (0 : ℝ) ≤ 1 / 2 ^ 53 * |(x : ℝ)| := by positivity
      linarith
  refine ⟨?_, herr⟩
  unfold F64.ofRat
  dsimp only
  rw [if_neg]
  push Not
  have hw1 : omega ≤ 1 := by
    unfold omega; rw [div_le_one (by positivity)]; exact one_le_pow₀ (by norm_num)
  have h1 : |((rne64 x : ℚ) : ℝ)| ≤ |((rne64 x : ℚ) : ℝ) - x| + |(x : ℝ)| := by
    have := abs_add_le (((rne64 x : ℚ) : ℝ) - x) x; simpa using this
  have h2 : |((rne64 x : ℚ) : ℝ)| < 2 ^ 1024 := by
    have hbig : (2 : ℝ) ^ 1000 + (1 / 2 ^ 53 * (2 ^ 200 + 1)) < 2 ^ 1024 := by norm_num
    have : 1 / 2 ^ 53 * (|(x : ℝ)| + omega) ≤ 1 / 2 ^ 53 * (2 ^ 200 + 1) :=
      mul_le_mul_of_nonneg_left (by linarith) (by positivity)
    linarith
  exact_mod_cast h2

namespace F64

/-- Finite binary64 data. -/
def IsFin : F64 → Prop
  | fin _ => True
  | _ => False

/-- The represented number (0 for NaN and infinities). -/
noncomputable def toReal : F64 → ℝ
  | fin x => (x : ℝ)
  | _ => 0

theorem isFin_iff (a : F64) : a.IsFin ↔ ∃ x, a = fin x := by
  cases a <;> simp [IsFin]

end F64

theorem roundAway_cast (x : ℚ) : roundAway (x : ℝ) = roundAway x := by
  unfold roundAway
  have h0 : (0 ≤ (x : ℝ)) ↔ 0 ≤ x := by exact_mod_cast Iff.rfl
  by_cases h : 0 ≤ x
  · rw [if_pos h, if_pos (h0.mpr h)]
    rw [← Rat.floor_cast (α := ℝ)]; push_cast; rfl
  · rw [if_neg h, if_neg (fun hh => h (h0.mp hh))]
    rw [← Rat.ceil_cast (α := ℝ)]; push_cast; rfl

theorem truncZ_cast (x : ℚ) : truncZ (x : ℝ) = truncZ x := by
  unfold truncZ
  have h0 : (0 ≤ (x : ℝ)) ↔ 0 ≤ x := by exact_mod_cast Iff.rfl
  by_cases h : 0 ≤ x
  · rw [if_pos h, if_pos (h0.mpr h), Rat.floor_cast]
  · rw [if_neg h, if_neg (fun hh => h (h0.mp hh)), Rat.ceil_cast]

theorem frac_err : |((6369051672525773 / 9007199254740992 : ℚ) : ℝ) - 1 / Real.sqrt 2| ≤ 1 / 2 ^ 53 := by
  have hs : 1 / Real.sqrt 2 = Real.sqrt 2 / 2 := by
    rw [div_eq_div_iff (by positivity) (by norm_num), one_mul, Real.mul_self_sqrt (by norm_num)]
  rw [hs]
  push_cast
  have h2 : Real.sqrt 2 * Real.sqrt 2 = 2 := Real.mul_self_sqrt (by norm_num)
  have hlo : (2 * (6369051672525773 / 9007199254740992 - 1 / 2 ^ 53) : ℝ) ≤ Real.sqrt 2 := by
    apply Real.le_sqrt_of_sq_le; norm_num
  have hhi : Real.sqrt 2 ≤ (2 * (6369051672525773 / 9007199254740992 + 1 / 2 ^ 53) : ℝ) := by
    rw [Real.sqrt_le_left (by norm_num)]; norm_num
  rw [abs_le]; constructor <;> linarith

noncomputable instance : LawfulFloat F64 where
  fin := F64.IsFin
  val := F64.toReal
  u := 1 / 2 ^ 53
  u_nonneg := by positivity
  u_le := le_refl _
  ofInt_spec n hn := by
    have hb : |((n : ℚ) : ℝ)| ≤ 2 ^ 200 := by
      push_cast
      have : |(n : ℝ)| ≤ 2 ^ 53 := by exact_mod_cast hn
      exact le_trans this (by norm_num)
    have h1 := (ofRat_spec (n : ℚ) hb).1
    have h2 := rne64_dyadic n 0 hn (by norm_num)
    simp only [pow_zero, div_one] at h2
    show (F64.ofRat (n : ℚ)).IsFin ∧ (F64.ofRat (n : ℚ)).toReal = n
    rw [h1, h2]
    exact ⟨trivial, by simp [F64.toReal]⟩
  ofInt_err n hn := by
    have h1 := ofRat_spec (n : ℚ) (by push_cast; exact hn)
    show (F64.ofRat (n : ℚ)).IsFin ∧ |(F64.ofRat (n : ℚ)).toReal - n| ≤ _
    rw [h1.1]
    refine ⟨trivial, ?_⟩
    have := h1.2; push_cast at this; exact this
  lit_dyadic m k hm hk := by
    have hx : |(((m : ℚ) / 2 ^ k : ℚ) : ℝ)| ≤ 2 ^ 200 := by
      push_cast
      rw [abs_div, abs_of_pos (by positivity : (0 : ℝ) < 2 ^ k)]
      have : |(m : ℝ)| ≤ 2 ^ 53 := by exact_mod_cast hm
      refine le_trans (div_le_self (abs_nonneg _) (one_le_pow₀ (by norm_num))) (le_trans this (by norm_num))
    have h1 := (ofRat_spec _ hx).1
    show (F64.ofRat ((m : ℚ) / 2 ^ k)).IsFin ∧ (F64.ofRat ((m : ℚ) / 2 ^ k)).toReal = _
    rw [h1, rne64_dyadic m k hm hk]
    exact ⟨trivial, by simp [F64.toReal]⟩
  lit_err q hq := by
    have h1 := ofRat_spec q hq
    show (F64.ofRat q).IsFin ∧ |(F64.ofRat q).toReal - q| ≤ _
    rw [h1.1]; exact ⟨trivial, h1.2⟩
  add_spec a b ha hb h := by
    obtain ⟨x, rfl⟩ := (F64.isFin_iff a).mp ha
    obtain ⟨y, rfl⟩ := (F64.isFin_iff b).mp hb
    have h1 := ofRat_spec (x + y) (by push_cast; exact h)
    show (F64.ofRat (x + y)).IsFin ∧ |(F64.ofRat (x + y)).toReal - ((x : ℝ) + y)| ≤ 1 / 2 ^ 53 * (|(x : ℝ) + y| + omega)
    rw [h1.1]; refine ⟨trivial, ?_⟩
    have := h1.2; push_cast at this; exact this
  sub_spec a b ha hb h := by
    obtain ⟨x, rfl⟩ := (F64.isFin_iff a).mp ha
    obtain ⟨y, rfl⟩ := (F64.isFin_iff b).mp hb
    have h1 := ofRat_spec (x + -y) (by push_cast; rw [← sub_eq_add_neg]; exact h)
    show (F64.ofRat (x + -y)).IsFin ∧ |(F64.ofRat (x + -y)).toReal - ((x : ℝ) - y)| ≤ 1 / 2 ^ 53 * (|(x : ℝ) - y| + omega)
    rw [h1.1]; refine ⟨trivial, ?_⟩
    have h2 : ((x + -y : ℚ) : ℝ) = (x : ℝ) - y := by push_cast; ring
    have := h1.2; rw [h2] at this; exact this
  mul_spec a b ha hb h := by
    obtain ⟨x, rfl⟩ := (F64.isFin_iff a).mp ha
    obtain ⟨y, rfl⟩ := (F64.isFin_iff b).mp hb
    have h1 := ofRat_spec (x * y) (by push_cast; exact h)
    show (F64.ofRat (x * y)).IsFin ∧ |(F64.ofRat (x * y)).toReal - ((x : ℝ) * y)| ≤ 1 / 2 ^ 53 * (|(x : ℝ) * y| + omega)
    rw [h1.1]; refine ⟨trivial, ?_⟩
    have := h1.2; push_cast at this; exact this
  div_spec a b ha hb hb0 h := by
    obtain ⟨x, rfl⟩ := (F64.isFin_iff a).mp ha
    obtain ⟨y, rfl⟩ := (F64.isFin_iff b).mp hb
    have hy : y ≠ 0 := by
      intro e; apply hb0; simp [F64.toReal, e]
    have h1 := ofRat_spec (x / y) (by push_cast; exact h)
    have e : F64.div (.fin x) (.fin y) = F64.ofRat (x / y) := by simp [F64.div, hy]
    show (F64.div (.fin x) (.fin y)).IsFin ∧ |(F64.div (.fin x) (.fin y)).toReal - ((x : ℝ) / y)|
        ≤ 1 / 2 ^ 53 * (|(x : ℝ) / y| + omega)
    rw [e, h1.1]; refine ⟨trivial, ?_⟩
    have := h1.2; push_cast at this; exact this
  round_spec a ha := by
    obtain ⟨x, rfl⟩ := (F64.isFin_iff a).mp ha
    refine ⟨trivial, ?_⟩
    show ((roundAway x : ℚ) : ℝ) = roundAway (x : ℝ)
    rw [roundAway_cast]; simp
  floor_spec a ha := by
    obtain ⟨x, rfl⟩ := (F64.isFin_iff a).mp ha
    refine ⟨trivial, ?_⟩
    show ((⌊x⌋ : ℚ) : ℝ) = ⌊(x : ℝ)⌋
    rw [Rat.floor_cast]; simp
  ge_spec a b ha hb := by
    obtain ⟨x, rfl⟩ := (F64.isFin_iff a).mp ha
    obtain ⟨y, rfl⟩ := (F64.isFin_iff b).mp hb
    show decide (y ≤ x) = true ↔ (y : ℝ) ≤ x
    rw [decide_eq_true_iff]; exact_mod_cast Iff.rfl
  truncSat_spec lo hi a ha := by
    obtain ⟨x, rfl⟩ := (F64.isFin_iff a).mp ha
    show clampZ lo hi (truncZ x) = clampZ lo hi (truncZ (x : ℝ))
    rw [truncZ_cast]
  truncSat_range lo hi a h1 h2 := by
    cases a with
    | nan => constructor <;> simp only [FloatOps.truncSat, F64.truncSat] <;> omega
    | inf s => cases s <;> constructor <;> simp [FloatOps.truncSat, F64.truncSat] <;> omega
    | fin x => exact clampZ_mem lo hi _ (h1.trans h2)
  frac_spec := ⟨trivial, frac_err⟩

end Sia
