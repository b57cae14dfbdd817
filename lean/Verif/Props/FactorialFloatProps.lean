import Verif.Props.FloatIeee
import Verif.Props.FloatProps
import Verif.Lemmas.ZernikeFloatLemmas

/-! C67: the factorial in double precision, for every argument. -/
namespace Sia
open FloatOps

/-- Binary64 values below `2^1024`. -/
theorem isDouble_lt {x : ℚ} (h : IsDouble x) : |x| < 2 ^ 1024 - 2 ^ 970 := by
  obtain ⟨m, e, h1, _, h3, rfl⟩ := h
  have hm : |(m : ℚ)| ≤ 2 ^ 53 - 1 := by
    have : |m| ≤ 2 ^ 53 - 1 := by omega
    exact_mod_cast this
  rw [abs_mul, abs_of_pos (two_zpow_pos e)]
  have he : (2 : ℚ) ^ e ≤ 2 ^ (971 : ℤ) := zpow_le_zpow_right₀ (by norm_num) h3
  have e1024 : (2 : ℚ) ^ 1024 = 2 ^ 53 * 2 ^ (971 : ℤ) := by
    rw [show (971 : ℤ) = ((971 : ℕ) : ℤ) by norm_num, zpow_natCast, ← pow_add]
  have e970 : (2 : ℚ) ^ 970 * 2 = 2 ^ (971 : ℤ) := by
    rw [show (971 : ℤ) = ((971 : ℕ) : ℤ) by norm_num, zpow_natCast]
    exact (pow_succ 2 970).symm
  have hp := two_zpow_pos 971
  have hq : (0 : ℚ) < 2 ^ 970 := pow_pos (by norm_num) _
  have h0 := two_zpow_pos e
  have step : |(m : ℚ)| * 2 ^ e ≤ (2 ^ 53 - 1) * 2 ^ (971 : ℤ) := mul_le_mul hm he h0.le (by norm_num)
  revert step e970 e1024 hq
  generalize (2 : ℚ) ^ (971 : ℤ) = P
  generalize (2 : ℚ) ^ 1024 = A
  generalize (2 : ℚ) ^ 970 = B
  intro e1024 e970 hq step
  linarith

theorem ofRat_of_lt (x : ℚ) (h : |x| < 2 ^ 1024 - 2 ^ 970) : F64.ofRat x = .fin (rne64 x) := by
  cases hc : F64.ofRat x with
  | nan => unfold F64.ofRat at hc; dsimp only at hc; split_ifs at hc
  | inf s => exact absurd ((f64_overflow x s).mp hc).1 (not_le.mpr h)
  | fin r => rw [(ofRat_fin_inv hc).1]

/-- Binary64 values are not changed by rounding. -/
theorem ofRat_self {x : ℚ} (h : IsDouble x) : F64.ofRat x = .fin x := by
  rw [ofRat_of_lt x (isDouble_lt h), rne64_self x h.onGrid]

theorem isDouble_zero : IsDouble 0 := by simpa using isDouble_int 0 (by norm_num)
theorem ofInt_zero64 : (ofInt 0 : F64) = .fin 0 := by
  show F64.ofRat ((0 : ℤ) : ℚ) = _
  rw [Int.cast_zero, ofRat_self isDouble_zero]
theorem ofInt_one64 : (ofInt 1 : F64) = .fin 1 := by
  show F64.ofRat ((1 : ℤ) : ℚ) = _
  rw [ofRat_self (isDouble_int 1 (by norm_num))]
  norm_num

theorem isZeroF_fin (x : ℚ) : isZeroF (F64.fin x) = decide (x = 0) := by
  unfold isZeroF
  rw [ofInt_zero64]
  show (decide (0 ≤ x) && decide (x ≤ 0)) = _
  rw [← Bool.decide_and, decide_eq_decide]
  exact ⟨fun h => le_antisymm h.2 h.1, fun h => by rw [h]; exact ⟨le_rfl, le_rfl⟩⟩

theorem sub64 (x y : ℚ) : FloatOps.sub (F64.fin x) (.fin y) = F64.ofRat (x - y) := by
  show F64.add (.fin x) (.fin (-y)) = _
  show F64.ofRat (x + -y) = _
  rw [← sub_eq_add_neg]

theorem isDouble_floor {x : ℚ} (h : IsDouble x) : IsDouble ((⌊x⌋ : ℤ) : ℚ) :=
  (f64_operations_valid (.fin x) (.fin x) h h).2.2.2.2.2.2

theorem truncF_double {x : ℚ} (h : IsDouble x) : truncF (F64.fin x) = .fin ((truncZ x : ℤ) : ℚ) ∧ IsDouble ((truncZ x : ℤ) : ℚ) := by
  unfold truncF truncZ
  rw [ofInt_zero64]
  show (if decide (0 ≤ x) = true then _ else _) = _ ∧ _
  by_cases h0 : 0 ≤ x
  · rw [if_pos (by simpa using h0), if_pos h0]
    exact ⟨rfl, isDouble_floor h⟩
  · rw [if_neg (by simpa using h0), if_neg h0]
    rw [sub64, zero_sub, ofRat_self (isDouble_neg h)]
    show FloatOps.sub (F64.fin 0) (.fin ((⌊-x⌋ : ℤ) : ℚ)) = _ ∧ _
    have hc : -((⌊-x⌋ : ℤ) : ℚ) = ((⌈x⌉ : ℤ) : ℚ) := by rw [Int.floor_neg]; push_cast; ring
    have hd : IsDouble ((⌈x⌉ : ℤ) : ℚ) := by rw [← hc]; exact isDouble_neg (isDouble_floor (isDouble_neg h))
    rw [sub64, zero_sub, hc, ofRat_self hd]
    exact ⟨rfl, hd⟩

theorem truncZ_int (z : ℤ) : truncZ (z : ℚ) = z := by unfold truncZ; split_ifs <;> simp

theorem fractF_int {x : ℚ} (h : IsDouble x) (z : ℤ) (hz : x = z) : isZeroF (fractF (F64.fin x)) = true := by
  unfold fractF
  rw [(truncF_double h).1, sub64, hz, truncZ_int, sub_self, ofRat_self isDouble_zero, isZeroF_fin]
  rfl

/-- The fractional part of a binary64 value is a binary64 value. -/
theorem fract_isDouble {x : ℚ} (h : IsDouble x) : IsDouble (x - truncZ x) := by
  obtain ⟨m, e, h1, h2, h3, hx⟩ := h
  rcases le_or_gt 0 e with he | he
  · obtain ⟨d, rfl⟩ := Int.eq_ofNat_of_zero_le he
    have : x = ((m * 2 ^ d : ℤ) : ℚ) := by rw [hx]; push_cast; rw [zpow_natCast]
    rw [this, truncZ_int, sub_self]
    exact isDouble_zero
  · obtain ⟨d, hd⟩ : ∃ d : ℕ, e = -d := ⟨e.natAbs, by omega⟩
    have hp : (0 : ℚ) < 2 ^ d := by positivity
    have hxd : x * 2 ^ d = m := by rw [hx, hd, zpow_neg, zpow_natCast]; field_simp
    refine ⟨m - truncZ x * 2 ^ d, e, ?_, h2, h3, ?_⟩
    · have hq : |((m - truncZ x * 2 ^ d : ℤ) : ℚ)| ≤ |(m : ℚ)| := by
        push_cast
        rw [← hxd, ← sub_mul, abs_mul, abs_mul]
        apply mul_le_mul_of_nonneg_right _ (abs_nonneg _)
        unfold truncZ
        split_ifs with h0
        · have f1 := Int.floor_le x
          have f2 : (0 : ℚ) ≤ (⌊x⌋ : ℤ) := by exact_mod_cast Int.floor_nonneg.mpr h0
          rw [abs_of_nonneg h0, abs_of_nonneg (by linarith)]
          linarith
        · have f1 := Int.le_ceil x
          have f2 : ((⌈x⌉ : ℤ) : ℚ) ≤ 0 := by exact_mod_cast Int.ceil_nonpos.mpr (by linarith)
          rw [abs_of_neg (by linarith : x < 0), abs_of_nonpos (by linarith : x - ((⌈x⌉ : ℤ) : ℚ) ≤ 0)]
          linarith
      have : |m - truncZ x * 2 ^ d| ≤ |m| := by exact_mod_cast hq
      omega
    · push_cast
      rw [sub_mul, ← hx, hd, zpow_neg, zpow_natCast, mul_assoc, mul_inv_cancel₀ hp.ne', mul_one]

/-- One unfolding of the recursion at a whole number. -/
theorem factorialFuelF_whole (M : Libm F64) (fuel : Nat) (z : ℤ) (h : IsDouble z) :
    factorialFuelF M (fuel + 1) (.fin z) =
      if z = 0 ∨ z = 1 then some (.fin 1) else (factorialFuelF M fuel (F64.ofRat (z - 1))).map (FloatOps.mul · (.fin z)) := by
  conv_lhs => unfold factorialFuelF
  rw [fractF_int h z rfl, ofInt_one64, sub64]
  have hround : FloatOps.round (F64.fin (z : ℚ)) = .fin z := by
    show F64.fin ((roundAway (z : ℚ) : ℤ) : ℚ) = _
    congr 2
    unfold roundAway
    split_ifs
    · rw [add_comm, Int.floor_add_intCast]; norm_num
    · rw [sub_eq_neg_add, Int.ceil_add_intCast]; norm_num
  rw [hround]
  have ht : (truncSat (-(2 ^ 63)) (2 ^ 63 - 1) (F64.fin (z : ℚ)) = 0 ∨ truncSat (-(2 ^ 63)) (2 ^ 63 - 1) (F64.fin (z : ℚ)) = 1) ↔ (z = 0 ∨ z = 1) := by
    show (clampZ _ _ (truncZ (z : ℚ)) = 0 ∨ clampZ _ _ (truncZ (z : ℚ)) = 1) ↔ _
    rw [truncZ_int]
    unfold clampZ
    split_ifs <;> omega
  simp only [ht]
  rfl

theorem ofRat_pred (z : ℤ) (h : |z - 1| ≤ 2 ^ 53) : F64.ofRat ((z : ℚ) - 1) = .fin ((z - 1 : ℤ) : ℚ) := by
  rw [← ofRat_int (z - 1) h]
  push_cast
  rfl

/-- The product the recursion computes: `((2 * 3) * 4) * ...`, every product rounded. -/
def factF64 : Nat → F64
  | 0 => .fin 1
  | n + 1 => if n = 0 then .fin 1 else F64.mul (factF64 n) (.fin (n + 1 : ℕ))

theorem isDouble_nat (n : Nat) (h : n ≤ 2 ^ 53) : IsDouble ((n : ℤ) : ℚ) := by
  rcases Nat.lt_or_ge n (2 ^ 53) with h1 | h1
  · exact isDouble_int n (by rw [abs_of_nonneg (by omega)]; omega)
  · obtain rfl : n = 2 ^ 53 := by omega
    exact ⟨2 ^ 52, 1, by norm_num, by norm_num, by norm_num, by norm_num⟩

theorem factorialFuelF_nat (M : Libm F64) (n : Nat) (h : n ≤ 2 ^ 53) : factorialFuelF M (n + 1) (.fin ((n : ℤ) : ℚ)) = some (factF64 n) := by
  induction n with
  | zero =>
    rw [factorialFuelF_whole M 0 _ (isDouble_nat 0 h), if_pos (Or.inl Nat.cast_zero)]
    rfl
  | succ n ih =>
    rw [factorialFuelF_whole M (n + 1) _ (isDouble_nat (n + 1) h)]
    by_cases h0 : n = 0
    · subst h0
      rw [if_pos (Or.inr (by norm_num))]
      rfl
    · rw [if_neg (by omega), ofRat_pred _ (by push_cast; rw [abs_of_nonneg (by omega)]; omega)]
      rw [show ((n + 1 : ℕ) : ℤ) - 1 = (n : ℤ) by push_cast; ring, ih (by omega)]
      rw [Option.map_some]
      congr 1
      conv_rhs => unfold factF64
      rw [if_neg h0]
      rfl

theorem factorialF_nat (M : Libm F64) (n : Nat) (h : n ≤ 2 ^ 53) : factorialF M (.fin (n : ℚ)) = .ok (factF64 n) := by
  have := factorialF_of_fuel M _ _ _ (factorialFuelF_nat M n h)
  exact_mod_cast this

/-- C67: factorials up to 22 are exact. -/
theorem factorial_f64_exact (M : Libm F64) (n : Nat) (h : n ≤ 22) : factorialF M (.fin (n : ℚ)) = .ok (.fin (n.factorial : ℚ)) := by
  rw [factorialF_nat M n (by omega)]
  congr 1
  revert n
  decide +kernel

/-- C67: factorials up to 170 are accurate to a relative error of `2^-50`. -/
theorem factorial_f64_accurate (M : Libm F64) (n : Nat) (h : n ≤ 170) :
    ∃ r, factorialF M (.fin (n : ℚ)) = .ok (.fin r) ∧ |r - n.factorial| ≤ 1 / 2 ^ 50 * n.factorial := by
  have key : ∀ n ≤ 170, (match factF64 n with
      | .fin r => decide (|r - (n.factorial : ℚ)| ≤ 1 / 2 ^ 50 * n.factorial)
      | _ => false) = true := by decide +kernel
  have := key n h
  rw [factorialF_nat M n (by omega)]
  split at this
  · rename_i r hr
    rw [hr]
    exact ⟨r, rfl, of_decide_eq_true this⟩
  · cases this

/-- C67: from 171 to `2^53` the factorial overflows to infinity. -/
theorem factorial_f64_overflow (M : Libm F64) (n : Nat) (h1 : 171 ≤ n) (h2 : n ≤ 2 ^ 53) : factorialF M (.fin (n : ℚ)) = .ok (.inf false) := by
  rw [factorialF_nat M n h2]
  congr 1
  clear h2
  induction n, h1 using Nat.le_induction with
  | base => decide +kernel
  | succ n hn ih =>
    unfold factF64
    rw [if_neg (by omega), ih]
    show (if ((n + 1 : ℕ) : ℚ) = 0 then F64.nan else .inf (false != decide (((n + 1 : ℕ) : ℚ) < 0))) = _
    rw [if_neg (by positivity)]
    have : ¬ ((n + 1 : ℕ) : ℚ) < 0 := not_lt.mpr (by positivity)
    rw [decide_eq_false this]
    rfl

theorem factorialF_diverges (M : Libm F64) (P : ℤ → Prop) (hP : ∀ z, P z → IsDouble z ∧ z ≠ 0 ∧ z ≠ 1 ∧
    ∃ z', P z' ∧ F64.ofRat ((z : ℚ) - 1) = .fin z') (z : ℤ) (hz : P z) : factorialF M (.fin z) = .error .stackOverflow := by
  have hn : ∀ fuel z, P z → factorialFuelF M fuel (.fin z) = none := by
    intro fuel
    induction fuel with
    | zero => intro z _; rfl
    | succ fuel ih =>
      intro z hz
      obtain ⟨h1, h2, h3, z', h4, h5⟩ := hP z hz
      rw [factorialFuelF_whole M fuel z h1, if_neg (by omega), h5, ih z' h4]
      rfl
  unfold factorialF
  rw [dif_neg]
  rintro ⟨r, fuel, h⟩
  rw [hn fuel z hz] at h
  cases h

theorem rne64_int (z : ℤ) : ∃ k : ℤ, rne64 (z : ℚ) = k := by
  by_cases h0 : z = 0
  · exact ⟨0, by subst h0; simp [rne64]⟩
  by_cases hs : |z| ≤ 2 ^ 53
  · exact ⟨z, rne64_self _ ⟨z, 0, hs, by norm_num, by simp⟩⟩
  · have hz : (z : ℚ) ≠ 0 := by exact_mod_cast h0
    have he : 0 ≤ ulpExp (z : ℚ) := by
      by_contra hc
      have hlt := abs_lt_ulp (z : ℚ)
      have h1 : (2 : ℚ) ^ ulpExp (z : ℚ) ≤ 1 := by
        have := zpow_le_zpow_right₀ (by norm_num : (1 : ℚ) ≤ 2) (by omega : ulpExp (z : ℚ) ≤ 0)
        simpa using this
      have h2 : |(z : ℚ)| < 2 ^ 53 := by
        refine hlt.trans_le ?_
        linarith
      have : |z| < 2 ^ 53 := by exact_mod_cast h2
      omega
    obtain ⟨d, hd⟩ := Int.eq_ofNat_of_zero_le he
    refine ⟨rneInt ((z : ℚ) / 2 ^ ulpExp (z : ℚ)) * 2 ^ d, ?_⟩
    rw [rne64_eq _ hz]
    conv_lhs => rw [hd]
    push_cast
    rw [hd, zpow_natCast]

/-- C67: the recursion never ends for a negative whole number. -/
theorem factorial_f64_negative (M : Libm F64) (z : ℤ) (hz : z < 0) (hd : IsDouble z) : factorialF M (.fin z) = .error .stackOverflow := by
  refine factorialF_diverges M (fun z => z < 0 ∧ IsDouble z) ?_ z ⟨hz, hd⟩
  rintro z ⟨hneg, hdz⟩
  refine ⟨hdz, by omega, by omega, ?_⟩
  obtain ⟨k, hk⟩ := rne64_int (z - 1)
  have hle : rne64 ((z - 1 : ℤ) : ℚ) ≤ -1 := by
    have h1 : ((z - 1 : ℤ) : ℚ) ≤ ((-1 : ℤ) : ℚ) := by exact_mod_cast (by omega : z - 1 ≤ -1)
    have h2 := rne64_mono h1
    rw [rne64_self ((-1 : ℤ) : ℚ) (isDouble_int (-1) (by norm_num)).onGrid] at h2
    exact_mod_cast h2
  have hof : F64.ofRat ((z : ℚ) - 1) = .fin k := by
    rw [← hk]
    have e : ((z - 1 : ℤ) : ℚ) = (z : ℚ) - 1 := by push_cast; rfl
    rw [e]
    apply ofRat_of_lt
    obtain ⟨m, f, h1, _, h3, hx⟩ := hdz
    have hzneg : (z : ℚ) < 0 := by exact_mod_cast hneg
    rw [abs_of_neg (by linarith)]
    have hb := abs_mul (m : ℚ) (2 ^ f)
    rw [← hx, abs_of_neg hzneg, abs_of_pos (two_zpow_pos f)] at hb
    have hm : |(m : ℚ)| ≤ 2 ^ 53 - 1 := by
      have : |m| ≤ 2 ^ 53 - 1 := by omega
      exact_mod_cast this
    have he : (2 : ℚ) ^ f ≤ 2 ^ (971 : ℤ) := zpow_le_zpow_right₀ (by norm_num) h3
    have step : |(m : ℚ)| * 2 ^ f ≤ (2 ^ 53 - 1) * 2 ^ (971 : ℤ) := mul_le_mul hm he (two_zpow_pos f).le (by norm_num)
    have e1024 : (2 : ℚ) ^ 1024 = 2 ^ 53 * 2 ^ (971 : ℤ) := by
      rw [show (971 : ℤ) = ((971 : ℕ) : ℤ) by norm_num, zpow_natCast, ← pow_add]
    have e970 : (2 : ℚ) ^ 970 * 2 = 2 ^ (971 : ℤ) := by
      rw [show (971 : ℤ) = ((971 : ℕ) : ℤ) by norm_num, zpow_natCast]
      exact (pow_succ 2 970).symm
    have hbig : (1 : ℚ) < 2 ^ 970 := one_lt_pow₀ (by norm_num) (by norm_num)
    revert step e970 e1024 hbig
    generalize (2 : ℚ) ^ (971 : ℤ) = P
    generalize (2 : ℚ) ^ 1024 = A
    generalize (2 : ℚ) ^ 970 = B
    intro e1024 e970 step hbig
    linarith
  refine ⟨k, ⟨?_, f64_result_is_double _ _ hof⟩, hof⟩
  rw [hk] at hle
  have : k ≤ -1 := by exact_mod_cast hle
  omega

/-- C67: nor does it end for any double above `2^53 + 2`, where subtracting 1 stops having an effect. -/
theorem factorial_f64_huge (M : Libm F64) (x : ℚ) (hx : 2 ^ 53 + 2 < x) (hd : IsDouble x) : factorialF M (.fin x) = .error .stackOverflow := by
  have hint : ∃ z : ℤ, x = z := by
    rcases isDouble_cases hd with h | h
    · exact h
    · have := (abs_lt.mp h).2
      norm_num at this hx
      linarith
  obtain ⟨z, rfl⟩ := hint
  have htie : rne64 (2 ^ 53 + 3) = 2 ^ 53 + 4 := by decide +kernel
  have hge : ∀ y : ℚ, 2 ^ 53 + 3 ≤ y → 2 ^ 53 + 4 ≤ rne64 y := by
    intro y hy
    have := rne64_mono hy
    rwa [htie] at this
  have hz4 : 2 ^ 53 + 4 ≤ z := by
    have h1 : (2 ^ 53 + 3 : ℚ) ≤ (z : ℚ) := by
      have : 2 ^ 53 + 2 < z := by exact_mod_cast hx
      exact_mod_cast (by omega : 2 ^ 53 + 3 ≤ z)
    have h2 := hge _ h1
    rw [rne64_self _ hd.onGrid] at h2
    exact_mod_cast h2
  refine factorialF_diverges M (fun z => 2 ^ 53 + 4 ≤ z ∧ IsDouble z) ?_ z ⟨hz4, hd⟩
  rintro z ⟨hbig, hdz⟩
  refine ⟨hdz, by omega, by omega, ?_⟩
  obtain ⟨k, hk⟩ := rne64_int (z - 1)
  have e : ((z - 1 : ℤ) : ℚ) = (z : ℚ) - 1 := by push_cast; rfl
  rw [e] at hk
  have hof : F64.ofRat ((z : ℚ) - 1) = .fin k := by
    rw [← hk]
    apply ofRat_of_lt
    have h1 := isDouble_lt hdz
    have hz0 : (1 : ℚ) < z := by exact_mod_cast (by omega : 1 < z)
    rw [abs_of_pos (by linarith)] at h1 ⊢
    refine lt_trans ?_ h1
    linarith
  refine ⟨k, ⟨?_, f64_result_is_double _ _ hof⟩, hof⟩
  have h3 : (2 ^ 53 + 3 : ℚ) ≤ (z : ℚ) - 1 := by
    rw [← e]; exact_mod_cast (by omega : 2 ^ 53 + 3 ≤ z - 1)
  have h4 := hge _ h3
  rw [hk] at h4
  exact_mod_cast h4

/-- C67: the one double in between goes on as `2^53`. -/
theorem factorial_f64_between (M : Libm F64) : factorialF M (.fin (2 ^ 53 + 2)) = .ok (.inf false) := by
  have h1 := factorialFuelF_nat M (2 ^ 53) le_rfl
  have hn := factorial_f64_overflow M (2 ^ 53) (by norm_num) le_rfl
  rw [factorialF_nat M _ le_rfl] at hn
  rw [Except.ok.inj hn] at h1
  have hd : IsDouble ((2 ^ 53 + 2 : ℤ) : ℚ) := ⟨2 ^ 52 + 1, 1, by norm_num, by norm_num, by norm_num, by norm_num⟩
  have h2 := factorialFuelF_whole M (2 ^ 53 + 1) (2 ^ 53 + 2) hd
  have hof : F64.ofRat (((2 ^ 53 + 2 : ℤ) : ℚ) - 1) = .fin (((2 ^ 53 : ℕ) : ℤ) : ℚ) := by
    have : ((2 ^ 53 + 2 : ℤ) : ℚ) - 1 = 2 ^ 53 + 1 := by norm_num
    rw [this]
    have h3 : F64.ofRat (2 ^ 53 + 1) = .fin (2 ^ 53) := by decide +kernel
    rw [h3]
    norm_num
  rw [if_neg (by norm_num), hof, h1, Option.map_some] at h2
  have h3 := factorialF_of_fuel M _ _ _ h2
  have e : ((2 ^ 53 + 2 : ℤ) : ℚ) = 2 ^ 53 + 2 := by norm_num
  rw [e] at h3
  rw [h3]
  have h4 : F64.mul (.inf false) (.fin (2 ^ 53 + 2)) = .inf false := by decide +kernel
  exact congrArg Except.ok h4

/-- C67: for every double that is not a whole number the result is the gamma function at `1 + x`. -/
theorem factorial_f64_fraction (M : Libm F64) (x : ℚ) (hd : IsDouble x) (hx : ∀ z : ℤ, x ≠ z) :
    factorialF M (.fin x) = .ok (M.gamma (F64.ofRat (1 + x))) := by
  apply factorialF_of_fuel M 1
  unfold factorialFuelF
  have hf : isZeroF (fractF (F64.fin x)) = false := by
    unfold fractF
    rw [(truncF_double hd).1, sub64, ofRat_self (fract_isDouble hd), isZeroF_fin, decide_eq_false_iff_not]
    intro h
    exact hx (truncZ x) (by linarith)
  rw [hf, if_pos Bool.not_false, ofInt_one64]
  rfl

/-- C67: and at infinities and NaN. -/
theorem factorial_f64_special (M : Libm F64) : factorialF M .nan = .ok (M.gamma .nan) ∧
    ∀ s, factorialF M (.inf s) = .ok (M.gamma (.inf s)) := by
  constructor
  · apply factorialF_of_fuel M 1
    unfold factorialFuelF
    rw [if_pos (by unfold isZeroF fractF truncF; rw [ofInt_zero64]; rfl), ofInt_one64]
    rfl
  · intro s
    apply factorialF_of_fuel M 1
    unfold factorialFuelF
    rw [if_pos (by unfold isZeroF fractF truncF; rw [ofInt_zero64]; cases s <;> rfl), ofInt_one64]
    cases s <;> rfl

example (M : Libm F64) : factorialF M (.fin 22) = .ok (.fin 1124000727777607680000) := by
  have := factorial_f64_exact M 22 le_rfl
  norm_num [Nat.factorial] at this
  exact this

example (M : Libm F64) : factorialF M (.fin (-3)) = .error .stackOverflow := by
  have := factorial_f64_negative M (-3) (by norm_num) (isDouble_int _ (by norm_num))
  norm_num at this
  exact this

example (M : Libm F64) : factorialF M (.fin (5 / 2)) = .ok (M.gamma (.fin (7 / 2))) := by
  rw [factorial_f64_fraction M (5 / 2) ⟨5, -1, by norm_num, by norm_num, by norm_num, by norm_num⟩ (by
    intro z hz
    have : (5 : ℚ) = ((2 * z : ℤ) : ℚ) := by push_cast; linarith
    have : (5 : ℤ) = 2 * z := by exact_mod_cast this
    omega)]
  have : F64.ofRat (1 + 5 / 2) = .fin (7 / 2) := by decide +kernel
  rw [this]

end Sia
