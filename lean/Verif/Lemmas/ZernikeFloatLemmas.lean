import Verif.Lemmas.FloatCalc
import Verif.Lemmas.ZernikeLemmas

/-! Rounding errors of the radial function. -/
namespace Sia
open FloatOps LawfulFloat

section
variable {F : Type} [FloatOps F]

theorem factorialFuelF_mono (M : Libm F) : ∀ (fuel : Nat) (x r : F), factorialFuelF M fuel x = some r →
    factorialFuelF M (fuel + 1) x = some r := by
  intro fuel
  induction fuel with
  | zero => intro x r h; simp [factorialFuelF] at h
  | succ fuel ih =>
    intro x r h
    unfold factorialFuelF at h ⊢
    split_ifs at h ⊢ with h1
    · exact h
    · dsimp only at h ⊢
      split_ifs at h ⊢ with h2
      · exact h
      · rw [Option.map_eq_some_iff] at h ⊢
        obtain ⟨a, ha, rfl⟩ := h
        exact ⟨a, ih _ _ ha, rfl⟩

theorem factorialFuelF_mono_le (M : Libm F) {a b : Nat} (h : a ≤ b) (x r : F) (hr : factorialFuelF M a x = some r) :
    factorialFuelF M b x = some r := by
  induction h with
  | refl => exact hr
  | step _ ih => exact factorialFuelF_mono M _ _ _ ih

theorem factorialF_of_fuel (M : Libm F) (fuel : Nat) (x r : F) (h : factorialFuelF M fuel x = some r) : factorialF M x = .ok r := by
  unfold factorialF
  have hex : ∃ r fuel, factorialFuelF M fuel x = some r := ⟨r, fuel, h⟩
  rw [dif_pos hex]
  congr 1
  obtain ⟨fuel', h'⟩ := hex.choose_spec
  have h1 := factorialFuelF_mono_le M (le_max_left fuel fuel') _ _ h
  have h2 := factorialFuelF_mono_le M (le_max_right fuel fuel') _ _ h'
  rw [h1] at h2
  exact (Option.some.inj h2).symm
end

section
variable {F : Type} [FloatOps F] [LawfulFloat F] [IntExact F]

theorem factorial_le_40 {k : Nat} (hk : k ≤ 40) : ((k.factorial : ℕ) : ℝ) ≤ 2 ^ 180 := by
  have h1 : k.factorial ≤ Nat.factorial 40 := Nat.factorial_le hk
  have h2 : Nat.factorial 40 ≤ 2 ^ 180 := by decide
  exact_mod_cast h1.trans h2

theorem factorialFuelF_int (M : Libm F) (fuel : Nat) (num : F) (k : ℕ) (h : IsInt num k) (hk : k ≤ 40) :
    factorialFuelF M (fuel + 1) num =
      if k = 0 ∨ k = 1 then some (ofInt 1) else (factorialFuelF M fuel (FloatOps.sub num (ofInt 1))).map (FloatOps.mul · num) := by
  have hz : |(k : ℤ)| ≤ 2 ^ 53 := by rw [abs_of_nonneg (by omega)]; omega
  conv_lhs => unfold factorialFuelF
  rw [h.fract hz]
  have hr := round_spec num h.1
  have hround : val (FloatOps.round num) = ((k : ℤ) : ℝ) := by rw [hr.2, h.2, roundAway_intCast]
  have ht : truncSat (-(2 ^ 63)) (2 ^ 63 - 1) (FloatOps.round num) = (k : ℤ) := by
    rw [truncSat_spec _ _ _ hr.1, hround]
    have : truncZ (((k : ℤ)) : ℝ) = k := by unfold truncZ; split <;> simp
    rw [this]
    unfold clampZ
    split_ifs <;> omega
  dsimp only
  rw [ht]
  have h2 : ((k : ℤ) = 0 ∨ (k : ℤ) = 1) ↔ (k = 0 ∨ k = 1) := by omega
  simp only [h2]
  rfl

/-- The factorial of a whole number, in machine arithmetic: at most one rounding per factor. -/
theorem factorialF_int (M : Libm F) : ∀ (k : ℕ) (num : F), IsInt num k → k ≤ 40 →
    ∃ r, factorialFuelF M (k + 1) num = some r ∧ Rel (k : ℝ) r (k.factorial : ℝ) := by
  have h1 : IsInt (ofInt 1 : F) 1 := isInt_ofInt 1 (by norm_num)
  intro k
  induction k with
  | zero =>
    intro num h hk
    refine ⟨_, by rw [factorialFuelF_int M 0 num 0 h hk, if_pos (Or.inl rfl)], ?_⟩
    have := h1.rel
    simpa using this
  | succ k ih =>
    intro num h hk
    by_cases hk0 : k = 0
    · subst hk0
      refine ⟨_, by rw [factorialFuelF_int M 1 num 1 h hk, if_pos (Or.inr rfl)], ?_⟩
      have := h1.rel.mono (show (0 : ℝ) ≤ 1 by norm_num)
      simpa using this
    · have hs : IsInt (FloatOps.sub num (ofInt 1 : F)) (k : ℕ) := by
        have := h.sub h1 (by push_cast; rw [abs_of_nonneg (by omega)]; omega)
        push_cast at this
        rw [add_sub_cancel_right] at this
        exact_mod_cast this
      obtain ⟨r, hr, hrel⟩ := ih _ hs (by omega)
      refine ⟨FloatOps.mul r num, ?_, ?_⟩
      · rw [factorialFuelF_int M (k + 1) num (k + 1) h hk, if_neg (by omega), hr]; rfl
      · have hx : (1 : ℝ) ≤ (k.factorial : ℝ) := by exact_mod_cast Nat.factorial_pos k
        have hprod : (k.factorial : ℝ) * (((k + 1 : ℕ) : ℤ) : ℝ) = ((k + 1).factorial : ℝ) := by
          rw [Nat.factorial_succ]; push_cast; ring
        have hbig : (1 : ℝ) ≤ ((k + 1).factorial : ℝ) := by exact_mod_cast Nat.factorial_pos (k + 1)
        have hle := factorial_le_40 hk
        have := hrel.mul h.rel (by positivity) le_rfl (by
          have : (k : ℝ) ≤ 40 := by exact_mod_cast (by omega : k ≤ 40)
          norm_num; linarith) (by norm_num) (by rw [hprod, abs_of_pos (by linarith)]; refine le_trans ?_ hbig; norm_num)
          (by rw [hprod, abs_of_pos (by linarith)]; refine hle.trans ?_; norm_num)
        rw [hprod, add_zero] at this
        push_cast
        exact this

theorem factorialF_ok (M : Libm F) (k : ℕ) (num : F) (h : IsInt num k) (hk : k ≤ 40) :
    ∃ r, factorialF M num = .ok r ∧ Rel (k : ℝ) r (k.factorial : ℝ) := by
  obtain ⟨r, hr, hrel⟩ := factorialF_int M k num h hk
  exact ⟨r, factorialF_of_fuel M _ _ _ hr, hrel⟩

/-- The coefficient `(n-s)! / (s! ((n+m)/2-s)! ((n-m)/2-s)!)`. -/
def zCoef (n m s : Nat) : Nat := (n - s).choose s * (n - 2 * s).choose ((n - m) / 2 - s)

theorem zCoef_pos (n m s : Nat) (hs : s ≤ (n - m) / 2) : 1 ≤ zCoef n m s := by
  unfold zCoef
  exact Nat.mul_pos (Nat.choose_pos (by omega)) (Nat.choose_pos (by omega))

theorem zCoef_le (n m s : Nat) (hn : n ≤ 40) : (zCoef n m s : ℝ) ≤ 2 ^ 80 := by
  have h1 : (n - s).choose s ≤ 2 ^ 40 := (Nat.choose_le_two_pow _ _).trans (Nat.pow_le_pow_right (by norm_num) (by omega))
  have h2 : (n - 2 * s).choose ((n - m) / 2 - s) ≤ 2 ^ 40 :=
    (Nat.choose_le_two_pow _ _).trans (Nat.pow_le_pow_right (by norm_num) (by omega))
  have : zCoef n m s ≤ 2 ^ 40 * 2 ^ 40 := Nat.mul_le_mul h1 h2
  have e : (2 : ℕ) ^ 40 * 2 ^ 40 = 2 ^ 80 := by norm_num
  rw [e] at this
  exact_mod_cast this

/-- The power of the computed radius. -/
theorem powf_near (M : Libm F) (hM : M.Lawful) (a e : F) (k : ℕ) (r j : ℝ) (ha : Rel j a r) (he : IsInt e k) (hk : k ≤ 40)
    (hr0 : 0 ≤ r) (hr1 : r ≤ 1) (hj0 : 0 ≤ j) (hj : j ≤ 2 ^ 10) :
    fin (M.powf a e) ∧ |val (M.powf a e) - r ^ k| ≤ (k * j + 3 / 2) * ulp := by
  have hp := ulp_pos
  have hju : j * ulp ≤ 1 / 2 ^ 42 := by
    have : j * ulp ≤ 2 ^ 10 * ulp := by gcongr
    refine this.trans ?_
    unfold ulp; norm_num
  set A := val a with hA
  have hAr : |A - r| ≤ j * ulp := by
    refine ha.2.trans ?_
    rw [abs_of_nonneg hr0]
    have : 0 ≤ j * ulp := by positivity
    nlinarith
  -- powers
  have hA1 : |A| ≤ 1 + j * ulp := by
    have := abs_add_le (A - r) r
    rw [sub_add_cancel, abs_of_nonneg hr0] at this
    linarith
  have hpow1 : ∀ i : ℕ, i ≤ 40 → |A| ^ i ≤ 1 + 1 / 2 ^ 30 := by
    intro i hi
    have h1 : |A| ^ i ≤ (1 + 1 / 2 ^ 42) ^ i := pow_le_pow_left₀ (abs_nonneg _) (by linarith) i
    have h2 : (1 + 1 / 2 ^ 42 : ℝ) ^ i ≤ (1 + 1 / 2 ^ 42) ^ 40 := pow_le_pow_right₀ (by norm_num) hi
    refine h1.trans (h2.trans ?_)
    norm_num
  have hdiff : ∀ i : ℕ, i ≤ 40 → |A ^ i - r ^ i| ≤ i * (j * ulp) * (1 + 1 / 2 ^ 30) := by
    intro i
    induction i with
    | zero => intro _; simp
    | succ i ih =>
      intro hi
      have e : A ^ (i + 1) - r ^ (i + 1) = A ^ i * (A - r) + (A ^ i - r ^ i) * r := by ring
      rw [e]
      refine (abs_add_le _ _).trans ?_
      rw [abs_mul, abs_mul, abs_pow, abs_of_nonneg hr0]
      have h1 : |A| ^ i * |A - r| ≤ (1 + 1 / 2 ^ 30) * (j * ulp) :=
        mul_le_mul (hpow1 i (by omega)) hAr (abs_nonneg _) (by norm_num)
      have h2 : |A ^ i - r ^ i| * r ≤ i * (j * ulp) * (1 + 1 / 2 ^ 30) * 1 :=
        mul_le_mul (ih (by omega)) hr1 hr0 (by positivity)
      push_cast
      linarith
  have hspec := hM.powf a e k ha.1 he.1 (by rw [he.2]; simp) ((hpow1 k hk).trans (by norm_num))
  refine ⟨hspec.1, ?_⟩
  have h1 := hdiff k hk
  have h2 := hpow1 k hk
  have h3 : ulp * (|A| ^ k + omega) ≤ ulp * (1 + 1 / 2 ^ 20) := by
    apply mul_le_mul_of_nonneg_left _ hp.le
    have := omega_tiny
    norm_num at *
    linarith
  have h4 := abs_sub_le (val (M.powf a e)) (A ^ k) (r ^ k)
  have h5 := hspec.2
  rw [← hA] at h5
  have h6 : (k : ℝ) * (j * ulp) * (1 / 2 ^ 30) ≤ 1 / 4 * ulp := by
    have hkj : (k : ℝ) * j ≤ 40 * 2 ^ 10 := mul_le_mul (by exact_mod_cast hk) hj hj0 (by norm_num)
    have : (k : ℝ) * j * (1 / 2 ^ 30) ≤ 1 / 4 := by norm_num at *; linarith
    calc (k : ℝ) * (j * ulp) * (1 / 2 ^ 30) = (k : ℝ) * j * (1 / 2 ^ 30) * ulp := by ring
      _ ≤ _ := mul_le_mul_of_nonneg_right this hp.le
  norm_num at *
  linarith

/-- Product of a number with relative error `k` ulp and a number in `[-1, 1]` with absolute error `l` ulp. -/
theorem mul_near {a b : F} {x y k l : ℝ} (ha : Rel k a x) (hb : fin b) (hb2 : |val b - y| ≤ l * ulp) (hy : |y| ≤ 1)
    (hk : 0 ≤ k) (hl : 0 ≤ l) (hk2 : k ≤ 2 ^ 12) (hl2 : l ≤ 2 ^ 12) (hx : 1 ≤ |x|) (hx2 : |x| ≤ 2 ^ 100) :
    fin (FloatOps.mul a b) ∧ |val (FloatOps.mul a b) - x * y| ≤ (k + l + 3 / 4) * ulp * |x| := by
  have hp := ulp_pos
  have hku : k * ulp ≤ 1 / 2 ^ 40 := by
    have : k * ulp ≤ 2 ^ 12 * ulp := by gcongr
    refine this.trans ?_
    unfold ulp; norm_num
  have hlu : l * ulp ≤ 1 / 2 ^ 40 := by
    have : l * ulp ≤ 2 ^ 12 * ulp := by gcongr
    refine this.trans ?_
    unfold ulp; norm_num
  set A := val a
  set B := val b
  have hx0 : 0 < |x| := by linarith
  have hAx : |A - x| ≤ k * ulp * |x| := ha.2
  have hB : |B| ≤ 1 + 1 / 2 ^ 40 := by
    have := abs_add_le (B - y) y
    rw [sub_add_cancel] at this
    linarith
  have e : A * B - x * y = (A - x) * B + x * (B - y) := by ring
  have he : |A * B - x * y| ≤ k * ulp * |x| * (1 + 1 / 2 ^ 40) + |x| * (l * ulp) := by
    rw [e]
    refine (abs_add_le _ _).trans (add_le_add ?_ ?_)
    · rw [abs_mul]; exact mul_le_mul hAx hB (abs_nonneg _) (by positivity)
    · rw [abs_mul]; exact mul_le_mul_of_nonneg_left hb2 (abs_nonneg _)
  have he2 : |A * B - x * y| ≤ (k + l + 1 / 16) * ulp * |x| := by
    refine he.trans ?_
    have : k * (1 / 2 ^ 40) ≤ 1 / 16 := by norm_num at *; linarith
    have h2 : k * (1 / 2 ^ 40) * (ulp * |x|) ≤ 1 / 16 * (ulp * |x|) := mul_le_mul_of_nonneg_right this (by positivity)
    nlinarith
  have hxy : |x * y| ≤ |x| := by rw [abs_mul]; nlinarith
  have hAB : |A * B| ≤ (1 + 1 / 2 ^ 30) * |x| := by
    have h1 := abs_add_le (A * B - x * y) (x * y)
    rw [sub_add_cancel] at h1
    have h2 : (k + l + 1 / 16) * ulp ≤ 1 / 2 ^ 30 := by
      have h3 : (k + l + 1 / 16) * ulp = k * ulp + l * ulp + 1 / 16 * ulp := by ring
      have h4 : ulp ≤ 1 / 2 ^ 40 := by unfold ulp; norm_num
      norm_num at *
      linarith
    have h5 : (k + l + 1 / 16) * ulp * |x| ≤ 1 / 2 ^ 30 * |x| := mul_le_mul_of_nonneg_right h2 hx0.le
    linarith
  have hs := mul_spec a b ha.1 hb (by
    refine hAB.trans ?_
    have : (1 + 1 / 2 ^ 30 : ℝ) * |x| ≤ (1 + 1 / 2 ^ 30) * 2 ^ 100 := mul_le_mul_of_nonneg_left hx2 (by norm_num)
    refine this.trans ?_
    norm_num)
  refine ⟨hs.1, ?_⟩
  have hu := u_le_half_ulp (F := F)
  have ho : omega ≤ 1 / 2 ^ 30 * |x| := by
    have := omega_tiny
    norm_num at *
    linarith
  have hr : |val (FloatOps.mul a b) - A * B| ≤ ulp / 2 * ((1 + 1 / 2 ^ 29) * |x|) := by
    refine hs.2.trans (mul_le_mul hu ?_ (add_nonneg (abs_nonneg _) omega_pos.le) (by linarith))
    have e29 : (1 + 1 / 2 ^ 29 : ℝ) * |x| = (1 + 1 / 2 ^ 30) * |x| + 1 / 2 ^ 30 * |x| := by ring
    rw [e29]
    exact add_le_add hAB ho
  have := abs_sub_le (val (FloatOps.mul a b)) (A * B) (x * y)
  have hpx : 0 ≤ ulp * |x| := by positivity
  norm_num at *
  linarith

theorem nat_abs_le (n : ℕ) (hn : n ≤ 2 ^ 53) : |(n : ℤ)| ≤ 2 ^ 53 := by
  rw [abs_of_nonneg (Int.natCast_nonneg n)]
  norm_num at hn ⊢
  omega

/-- One term of the radial polynomial in machine arithmetic. -/
theorem zfF_near (M : Libm F) (hM : M.Lawful) (n m s : ℕ) (a : F) (r : ℝ) (hn : n ≤ 40) (hm : m ≤ n) (hp : (n - m) % 2 = 0)
    (hs : s ≤ (n - m) / 2) (ha : Rel 7 a r) (hr0 : 0 ≤ r) (hr1 : r ≤ 1) :
    ∃ y, zfF M n m s a = .ok y ∧ fin y ∧ |val y - zCoef n m s * r ^ (n - 2 * s)| ≤ (9 * n + 6) * ulp * zCoef n m s := by
  have hN : IsInt (ofInt (n : ℤ) : F) n := isInt_ofInt _ (nat_abs_le _ (by omega))
  have hMi : IsInt (ofInt (m : ℤ) : F) m := isInt_ofInt _ (nat_abs_le _ (by omega))
  have hS : IsInt (ofInt (s : ℤ) : F) s := isInt_ofInt _ (nat_abs_le _ (by omega))
  have h2 : IsInt (ofInt 2 : F) 2 := isInt_ofInt _ (by norm_num)
  -- the four factorials
  have i1 : IsInt (FloatOps.sub (ofInt (n : ℤ) : F) (ofInt (s : ℤ))) ((n - s : ℕ) : ℤ) := by
    have := hN.sub hS (by rw [abs_of_nonneg (by omega)]; omega)
    rw [show ((n - s : ℕ) : ℤ) = (n : ℤ) - s by omega]; exact this
  have i2 : IsInt (FloatOps.sub (FloatOps.div (FloatOps.add (ofInt (n : ℤ) : F) (ofInt (m : ℤ))) (ofInt 2)) (ofInt (s : ℤ)))
      (((n + m) / 2 - s : ℕ) : ℤ) := by
    have t1 := hN.add hMi (by rw [abs_of_nonneg (by omega)]; omega)
    have t2 := t1.div (k := ((n + m) / 2 : ℕ)) h2 (by norm_num) (by omega) (nat_abs_le _ (by omega))
    have := t2.sub hS (by rw [abs_of_nonneg (by omega)]; omega)
    rw [show (((n + m) / 2 - s : ℕ) : ℤ) = (((n + m) / 2 : ℕ) : ℤ) - s by omega]; exact this
  have i3 : IsInt (FloatOps.sub (FloatOps.div (FloatOps.sub (ofInt (n : ℤ) : F) (ofInt (m : ℤ))) (ofInt 2)) (ofInt (s : ℤ)))
      (((n - m) / 2 - s : ℕ) : ℤ) := by
    have t1 := hN.sub hMi (by rw [abs_of_nonneg (by omega)]; omega)
    have t2 := t1.div (k := ((n - m) / 2 : ℕ)) h2 (by norm_num) (by omega) (nat_abs_le _ (by omega))
    have := t2.sub hS (by rw [abs_of_nonneg (by omega)]; omega)
    rw [show (((n - m) / 2 - s : ℕ) : ℤ) = (((n - m) / 2 : ℕ) : ℤ) - s by omega]; exact this
  obtain ⟨f1, e1, r1⟩ := factorialF_ok M _ _ i1 (by omega)
  obtain ⟨f2, e2, r2⟩ := factorialF_ok M _ _ hS (by omega)
  obtain ⟨f3, e3, r3⟩ := factorialF_ok M _ _ i2 (by omega)
  obtain ⟨f4, e4, r4⟩ := factorialF_ok M _ _ i3 (by omega)
  -- their quotient
  have ge1 : ∀ k : ℕ, (1 : ℝ) ≤ (k.factorial : ℝ) := fun k => by exact_mod_cast Nat.factorial_pos k
  have hle : ∀ k : ℕ, k ≤ 40 → (k : ℝ) ≤ 40 := fun k hk => by exact_mod_cast hk
  have prod_le : ((s.factorial : ℝ) * (((n + m) / 2 - s).factorial : ℝ)) * (((n - m) / 2 - s).factorial : ℝ) ≤ 2 ^ 180 := by
    have hdvd : s.factorial * ((n + m) / 2 - s).factorial * ((n - m) / 2 - s).factorial ≤ (n - s).factorial := by
      have d1 := Nat.factorial_mul_factorial_dvd_factorial_add s (((n + m) / 2 - s) + ((n - m) / 2 - s))
      have d2 := Nat.factorial_mul_factorial_dvd_factorial_add ((n + m) / 2 - s) ((n - m) / 2 - s)
      have d3 := Nat.le_of_dvd (Nat.factorial_pos _) d1
      have d4 := Nat.le_of_dvd (Nat.factorial_pos _) d2
      rw [show s + (((n + m) / 2 - s) + ((n - m) / 2 - s)) = n - s by omega] at d3
      calc s.factorial * ((n + m) / 2 - s).factorial * ((n - m) / 2 - s).factorial
          = s.factorial * (((n + m) / 2 - s).factorial * ((n - m) / 2 - s).factorial) := by ring
        _ ≤ s.factorial * (((n + m) / 2 - s) + ((n - m) / 2 - s)).factorial := Nat.mul_le_mul_left _ d4
        _ ≤ _ := d3
    have h1 : ((s.factorial * ((n + m) / 2 - s).factorial * ((n - m) / 2 - s).factorial : ℕ) : ℝ) ≤ ((n - s).factorial : ℝ) := by
      exact_mod_cast hdvd
    push_cast at h1
    exact h1.trans (factorial_le_40 (by omega))
  have g2 := ge1 s
  have g3 := ge1 ((n + m) / 2 - s)
  have g4 := ge1 ((n - m) / 2 - s)
  have p23 : (1 : ℝ) ≤ (s.factorial : ℝ) * (((n + m) / 2 - s).factorial : ℝ) := one_le_mul_of_one_le_of_one_le g2 g3
  have p234 : (1 : ℝ) ≤ (s.factorial : ℝ) * (((n + m) / 2 - s).factorial : ℝ) * (((n - m) / 2 - s).factorial : ℝ) :=
    one_le_mul_of_one_le_of_one_le p23 g4
  have p23le : (s.factorial : ℝ) * (((n + m) / 2 - s).factorial : ℝ) ≤ 2 ^ 180 :=
    le_trans (le_mul_of_one_le_right (by linarith) g4) prod_le
  have b1 := hle (n - s) (by omega)
  have b2 := hle s (by omega)
  have b3 := hle ((n + m) / 2 - s) (by omega)
  have b4 := hle ((n - m) / 2 - s) (by omega)
  have small : ∀ x : ℝ, 1 ≤ x → 1 / 2 ^ 100 ≤ |x| := fun x hx => by
    rw [abs_of_pos (by linarith)]; refine le_trans ?_ hx; norm_num
  have big : ∀ x : ℝ, 1 ≤ x → x ≤ 2 ^ 180 → |x| ≤ 2 ^ 190 := fun x hx hx2 => by
    rw [abs_of_pos (by linarith)]; refine hx2.trans ?_; norm_num
  have t18 : ∀ x : ℝ, x ≤ 200 → x ≤ 2 ^ 18 := fun x hx => hx.trans (by norm_num)
  have t16 : ∀ x : ℝ, x ≤ 200 → x ≤ 2 ^ 16 := fun x hx => hx.trans (by norm_num)
  have q1 := r2.mul r3 (by positivity) (by positivity) (t18 _ (by linarith)) (t18 _ (by linarith))
    (small _ p23) (big _ p23 p23le)
  have q2 := q1.mul r4 (by positivity) (by positivity) (t18 _ (by linarith)) (t18 _ (by linarith))
    (small _ p234) (big _ p234 prod_le)
  have hcoef : ((n - s).factorial : ℝ) / ((s.factorial : ℝ) * (((n + m) / 2 - s).factorial : ℝ) * (((n - m) / 2 - s).factorial : ℝ)) =
      (zCoef n m s : ℝ) := by
    rw [coef_eq n m s hm hp hs]; unfold zCoef; push_cast; rfl
  have hc1 : (1 : ℝ) ≤ (zCoef n m s : ℝ) := by exact_mod_cast zCoef_pos n m s hs
  have hc2 := zCoef_le n m s hn
  have q3 := r1.div q2 (by positivity) (by positivity) (t16 _ (by linarith)) (t16 _ (by linarith))
    (by linarith) (by rw [hcoef]; exact small _ hc1) (by rw [hcoef]; exact big _ hc1 (hc2.trans (by norm_num)))
  rw [hcoef] at q3
  have hk : ((n - s : ℕ) : ℝ) + ((s : ℝ) + (((n + m) / 2 - s : ℕ) : ℝ) + 1 + (((n - m) / 2 - s : ℕ) : ℝ) + 1) + 1 ≤ 2 * n + 3 := by
    have : (n - s) + (s + ((n + m) / 2 - s) + 1 + ((n - m) / 2 - s) + 1) + 1 ≤ 2 * n + 3 := by omega
    exact_mod_cast this
  have q4 := q3.mono hk
  -- the power
  set term : F := if isZeroF a && isZeroF (FloatOps.sub (ofInt (n : ℤ) : F) (FloatOps.mul (ofInt 2) (ofInt (s : ℤ)))) then ofInt 1
    else M.powf a (ofInt ((n : ℤ) - 2 * s)) with hterm
  have hpow : fin term ∧ |val term - r ^ (n - 2 * s)| ≤ (((n - 2 * s : ℕ) : ℝ) * 7 + 3 / 2) * ulp := by
    have hexp : IsInt (ofInt ((n : ℤ) - 2 * s) : F) ((n - 2 * s : ℕ) : ℤ) := by
      rw [show ((n - 2 * s : ℕ) : ℤ) = (n : ℤ) - 2 * s by omega]
      exact isInt_ofInt _ (by rw [abs_of_nonneg (by omega)]; omega)
    rw [hterm]
    split_ifs with hz
    · rw [Bool.and_eq_true] at hz
      have h1 : IsInt (FloatOps.sub (ofInt (n : ℤ) : F) (FloatOps.mul (ofInt 2) (ofInt (s : ℤ)))) ((n : ℤ) - 2 * s) :=
        hN.sub (h2.mul hS (by rw [abs_of_nonneg (by omega)]; omega)) (by rw [abs_of_nonneg (by omega)]; omega)
      have h3 := (isZeroF_iff _ h1.1).mp hz.2
      rw [h1.2] at h3
      have h4 : (n : ℤ) - 2 * s = 0 := by exact_mod_cast h3
      have h5 : n - 2 * s = 0 := by omega
      have h6 : IsInt (ofInt 1 : F) 1 := isInt_ofInt _ (by norm_num)
      refine ⟨h6.1, ?_⟩
      rw [h5, h6.2]
      have := ulp_pos
      simp
      positivity
    · exact powf_near M hM a _ (n - 2 * s) r 7 ha hexp (by omega) hr0 hr1 (by norm_num) (by norm_num)
  -- their product
  have hrp : |r ^ (n - 2 * s)| ≤ 1 := by rw [abs_of_nonneg (by positivity)]; exact pow_le_one₀ hr0 hr1
  have hn' : (n : ℝ) ≤ 40 := hle n hn
  have hns : ((n - 2 * s : ℕ) : ℝ) ≤ n := by exact_mod_cast Nat.sub_le _ _
  have res := mul_near q4 hpow.1 (l := 7 * n + 3 / 2) (hpow.2.trans (mul_le_mul_of_nonneg_right (by linarith) ulp_pos.le)) hrp
    (by positivity) (by positivity) (by norm_num; linarith) (by norm_num; linarith)
    (by rw [abs_of_pos (by linarith)]; exact hc1) (by rw [abs_of_pos (by linarith)]; exact hc2.trans (by norm_num))
  refine ⟨_, ?_, res.1, ?_⟩
  · unfold zfF
    rw [e1, e2, e3, e4]
    rfl
  · refine res.2.trans ?_
    rw [abs_of_pos (by linarith : (0 : ℝ) < zCoef n m s)]
    apply mul_le_mul_of_nonneg_right _ (by linarith)
    apply mul_le_mul_of_nonneg_right _ ulp_pos.le
    linarith

end
end Sia
