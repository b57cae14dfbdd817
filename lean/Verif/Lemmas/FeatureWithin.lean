import Verif.Lemmas.FeatureTotal
import Verif.Props.FeatureBounds

/-! Bounds on the intermediate results of the feature computation in double precision (C79). -/
namespace Sia
open FloatOps

/-- A finite number of magnitude at most `b`. -/
def F64.Within (b : ℚ) (x : F64) : Prop := ∃ q : ℚ, x = .fin q ∧ |q| ≤ b

theorem ofRat_within {b x : ℚ} (hb : IsDouble b) (h : |x| ≤ b) : (F64.ofRat x).Within b := by
  have hlt := isDouble_lt hb
  have hb0 : 0 ≤ b := (abs_nonneg x).trans h
  rw [abs_of_nonneg hb0] at hlt
  refine ⟨_, ofRat_of_lt x (lt_of_le_of_lt h hlt), ?_⟩
  obtain ⟨h1, h2⟩ := abs_le.mp h
  have m1 := rne64_mono h1
  have m2 := rne64_mono h2
  rw [rne64_self _ (isDouble_neg hb).onGrid] at m1
  rw [rne64_self _ hb.onGrid] at m2
  exact abs_le.mpr ⟨m1, m2⟩

theorem isDouble_scaled (c k : ℕ) (hc : c < 2 ^ 53) (hk : k ≤ 971) : IsDouble ((c : ℚ) * 2 ^ k) :=
  ⟨c, k, by rw [abs_of_nonneg (by positivity)]; exact_mod_cast hc, by omega, by exact_mod_cast hk, by simp⟩

theorem isDouble_two_pow (k : ℕ) (hk : k ≤ 971) : IsDouble ((2 : ℚ) ^ k) := by
  have := isDouble_scaled 1 k (by norm_num) hk
  simpa using this

theorem F64.Within.mono {b c : ℚ} {x : F64} (h : x.Within b) (hbc : b ≤ c) : x.Within c :=
  ⟨h.choose, h.choose_spec.1, h.choose_spec.2.trans hbc⟩

theorem F64.Within.mul {x y : F64} {j k : ℕ} (hx : x.Within (2 ^ j)) (hy : y.Within (2 ^ k)) (h : j + k ≤ 971) :
    (FloatOps.mul x y).Within (2 ^ (j + k)) := by
  obtain ⟨p, rfl, hp⟩ := hx
  obtain ⟨q, rfl, hq⟩ := hy
  show (F64.ofRat (p * q)).Within _
  refine ofRat_within (isDouble_two_pow _ h) ?_
  rw [abs_mul, pow_add]
  exact mul_le_mul hp hq (abs_nonneg _) (by positivity)

theorem F64.Within.neg {x : F64} {b : ℚ} (hb : IsDouble b) (hx : x.Within b) : (FloatOps.sub (ofInt 0) x).Within b := by
  obtain ⟨p, rfl, hp⟩ := hx
  rw [ofInt_zero64, sub64, zero_sub]
  exact ofRat_within hb (by rwa [abs_neg])

theorem F64.Within.accumulate {x y : F64} {t k : ℕ} (hx : x.Within (t * 2 ^ k)) (hy : y.Within (2 ^ k)) (ht : t + 1 < 2 ^ 53)
    (hk : k ≤ 971) : (FloatOps.add x y).Within ((t + 1 : ℕ) * 2 ^ k) := by
  obtain ⟨p, rfl, hp⟩ := hx
  obtain ⟨q, rfl, hq⟩ := hy
  show (F64.ofRat (p + q)).Within _
  refine ofRat_within (isDouble_scaled _ _ ht hk) ((abs_add_le p q).trans ?_)
  push_cast
  linarith

theorem within_of_val {x : F64} (h : LawfulFloat.fin x) (b : ℚ) (hb : |LawfulFloat.val x| ≤ (b : ℝ)) : x.Within b := by
  cases x with
  | nan => exact h.elim
  | inf s => exact h.elim
  | fin q =>
    refine ⟨q, rfl, ?_⟩
    have : |((q : ℚ) : ℝ)| ≤ (b : ℝ) := hb
    exact_mod_cast this

/-- A product of positive numbers that are roughly known. -/
theorem rough_round (x X : ℚ) (hX : 1 ≤ X) (hX2 : X ≤ 2 ^ 1022) (l u : ℚ) (hl : 1 / 2 ≤ l) (hu : u ≤ 3 / 2) (h1 : l * X ≤ x)
    (h2 : x ≤ u * X) : ∃ r, F64.ofRat x = .fin r ∧ (l - 1 / 100) * X ≤ r ∧ r ≤ (u + 1 / 100) * X := by
  have hx0 : 0 < x := lt_of_lt_of_le (by nlinarith) h1
  have hbig : |x| < 2 ^ 1024 - 2 ^ 970 := by
    rw [abs_of_pos hx0]
    have h3 : x ≤ 3 / 2 * 2 ^ 1022 := by nlinarith
    refine lt_of_le_of_lt h3 ?_
    have e : (2 : ℚ) ^ 1024 = 4 * 2 ^ 1022 := by rw [show 1024 = 1022 + 2 by norm_num, pow_add]; norm_num; ring
    have e2 : (2 : ℚ) ^ 970 ≤ 2 ^ 1022 := pow_le_pow_right₀ (by norm_num) (by norm_num)
    have e3 : (0 : ℚ) < 2 ^ 1022 := by positivity
    rw [e]
    clear e h3 hX2
    generalize (2 : ℚ) ^ 1022 = P at *
    generalize (2 : ℚ) ^ 970 = Q at *
    linarith
  refine ⟨_, ofRat_of_lt x hbig, ?_⟩
  have he : |rne64 x - x| ≤ 1 / 100 * X := by
    rcases rne64_err x with h | h
    · rw [abs_of_pos hx0] at h
      have : (1 : ℚ) / 2 ^ 53 * x ≤ 1 / 1000 * x := by gcongr; norm_num
      have : (1 : ℚ) / 1000 * x ≤ 1 / 1000 * (3 / 2 * X) := by gcongr; nlinarith
      linarith
    · have : (1 : ℚ) / 2 ^ 1075 ≤ 1 / 2 ^ 10 := one_div_le_one_div_of_le (by positivity) (pow_le_pow_right₀ (by norm_num) (by norm_num))
      have h4 := h.trans this
      have : (1 : ℚ) / 2 ^ 10 ≤ 1 / 100 := by norm_num
      linarith
  obtain ⟨a1, a2⟩ := abs_le.mp he
  constructor <;> linarith

theorem factF64_rough (n : Nat) (h : n ≤ 170) :
    ∃ r : ℚ, factF64 n = .fin r ∧ 99 / 100 * (n.factorial : ℚ) ≤ r ∧ r ≤ 101 / 100 * (n.factorial : ℚ) := by
  obtain ⟨r, h1, h2⟩ := factorial_f64_accurate ⟨fun x _ => x, id, fun x _ => x, fun x _ => x, id, id, id, id⟩ n h
  rw [factorialF_nat _ n (by omega)] at h1
  refine ⟨r, Except.ok.inj h1, ?_⟩
  have hp : (0 : ℚ) < (n.factorial : ℚ) := by exact_mod_cast Nat.factorial_pos n
  have : (1 : ℚ) / 2 ^ 50 * (n.factorial : ℚ) ≤ 1 / 100 * (n.factorial : ℚ) := by gcongr; norm_num
  obtain ⟨a1, a2⟩ := abs_le.mp h2
  constructor <;> linarith

theorem factorial_bound (n : Nat) (h : n ≤ 170) : (n.factorial : ℚ) ≤ 2 ^ 1022 := by
  have h1 : n.factorial ≤ (170).factorial := Nat.factorial_le h
  have h2 : (170).factorial ≤ 2 ^ 1022 := by decide +kernel
  exact_mod_cast h1.trans h2

theorem zCoef_pow (n m s : Nat) (hn : n ≤ 170) : (zCoef n m s : ℚ) ≤ 2 ^ 340 := by
  have h1 : (n - s).choose s ≤ 2 ^ 170 := (Nat.choose_le_two_pow _ _).trans (Nat.pow_le_pow_right (by norm_num) (by omega))
  have h2 : (n - 2 * s).choose ((n - m) / 2 - s) ≤ 2 ^ 170 :=
    (Nat.choose_le_two_pow _ _).trans (Nat.pow_le_pow_right (by norm_num) (by omega))
  have : zCoef n m s ≤ 2 ^ 170 * 2 ^ 170 := Nat.mul_le_mul h1 h2
  rw [← pow_add] at this
  exact_mod_cast this

theorem zCoef_quotient (n m s : Nat) (hm : m ≤ n) (hp : n % 2 = m % 2) (hs : s ≤ (n - m) / 2) :
    ((n - s).factorial : ℚ) = zCoef n m s * ((s.factorial : ℚ) * (((n + m) / 2 - s).factorial : ℚ) * (((n - m) / 2 - s).factorial : ℚ)) := by
  have h := coef_eq n m s hm (by omega) hs
  rw [div_eq_iff (by positivity)] at h
  unfold zCoef
  exact_mod_cast h

/-- The coefficients up to order 170 are finite. -/
theorem zQuot_within (n m s : Nat) (hn : n ≤ 170) (hm : m ≤ n) (hp : n % 2 = m % 2) (hs : s ≤ (n - m) / 2) :
    (zQuot n m s).Within (2 ^ 341) := by
  obtain ⟨r0, e0, l0, u0⟩ := factF64_rough (n - s) (by omega)
  obtain ⟨r1, e1, l1, u1⟩ := factF64_rough s (by omega)
  obtain ⟨r2, e2, l2, u2⟩ := factF64_rough ((n + m) / 2 - s) (by omega)
  obtain ⟨r3, e3, l3, u3⟩ := factF64_rough ((n - m) / 2 - s) (by omega)
  have hq := zCoef_quotient n m s hm hp hs
  have hz1 : (1 : ℚ) ≤ zCoef n m s := by exact_mod_cast zCoef_pos n m s hs
  have hz2 := zCoef_pow n m s hn
  have hb := factorial_bound (n - s) (by omega)
  have ge1 : ∀ k : ℕ, (1 : ℚ) ≤ (k.factorial : ℚ) := fun k => by exact_mod_cast Nat.factorial_pos k
  have g1 := ge1 s
  have g2 := ge1 ((n + m) / 2 - s)
  have g3 := ge1 ((n - m) / 2 - s)
  generalize ((n - s).factorial : ℚ) = N0 at *
  generalize (s.factorial : ℚ) = A at *
  generalize (((n + m) / 2 - s).factorial : ℚ) = B at *
  generalize (((n - m) / 2 - s).factorial : ℚ) = C at *
  generalize (zCoef n m s : ℚ) = Z at *
  have gAB : 1 ≤ A * B := one_le_mul_of_one_le_of_one_le g1 g2
  have gABC : 1 ≤ A * B * C := one_le_mul_of_one_le_of_one_le gAB g3
  have bABC : A * B * C ≤ 2 ^ 1022 := le_trans (by rw [hq]; nlinarith) hb
  have bAB : A * B ≤ 2 ^ 1022 := le_trans (by nlinarith) bABC
  obtain ⟨x, ex, lx, ux⟩ := rough_round (r1 * r2) (A * B) gAB bAB (98 / 100) (103 / 100) (by norm_num) (by norm_num)
    (by have := mul_le_mul l1 l2 (by positivity) (by linarith); nlinarith)
    (by have := mul_le_mul u1 u2 (by linarith) (by positivity); nlinarith)
  obtain ⟨y, ey, ly, uy⟩ := rough_round (x * r3) (A * B * C) gABC bABC (95 / 100) (106 / 100) (by norm_num) (by norm_num)
    (by have := mul_le_mul lx l3 (by positivity) (by nlinarith); nlinarith)
    (by have := mul_le_mul ux u3 (by linarith) (by positivity); nlinarith)
  unfold zQuot
  rw [e0, e1, e2, e3]
  have em1 : FloatOps.mul (F64.fin r1) (F64.fin r2) = .fin x := ex
  have em2 : FloatOps.mul (F64.fin x) (F64.fin r3) = .fin y := ey
  have hy0 : 0 < y := lt_of_lt_of_le (by nlinarith) ly
  have ed : FloatOps.div (F64.fin r0) (F64.fin y) = F64.ofRat (r0 / y) := by
    show F64.div _ _ = _
    unfold F64.div
    dsimp only
    rw [if_neg hy0.ne']
  rw [em1, em2, ed]
  refine ofRat_within (isDouble_two_pow _ (by norm_num)) ?_
  rw [abs_of_nonneg (div_nonneg (by nlinarith) hy0.le), div_le_iff₀ hy0]
  have h2 : (2 : ℚ) ^ 341 = 2 * 2 ^ 340 := by rw [pow_succ]; ring
  rw [h2]
  have h3 : r0 ≤ 2 * Z * ((95 / 100 - 1 / 100) * (A * B * C)) := by
    rw [hq] at u0
    have : 0 ≤ Z * (A * B * C) := by positivity
    nlinarith
  have h4 : 2 * Z * ((95 / 100 - 1 / 100) * (A * B * C)) ≤ 2 * Z * y := mul_le_mul_of_nonneg_left ly (by positivity)
  have h5 : 2 * Z * y ≤ 2 * 2 ^ 340 * y := by gcongr
  exact h3.trans (h4.trans h5)

/-- The powers of the computed radius. -/
theorem zTerm_within (M : Libm F64) (hM : M.Lawful) (n s : Nat) (r : F64) (ρ : ℝ) (hn : n ≤ 170) (hs : 2 * s ≤ n)
    (hr : Rel 7 r ρ) (h0 : 0 ≤ ρ) (h1 : ρ ≤ 1) : (zTerm M n s r).Within (2 ^ 2) := by
  unfold zTerm
  split_ifs
  · rw [ofInt_one64]; exact ⟨1, rfl, by norm_num⟩
  · have hu : ulp ≤ 1 / 2 ^ 50 := by unfold ulp; norm_num
    have hk : IsInt (ofInt ((n : ℤ) - 2 * s) : F64) ((n : ℤ) - 2 * s) :=
      isInt_ofInt _ (by rw [abs_of_nonneg (by omega)]; omega)
    have hv : |LawfulFloat.val r| ≤ 1 + 1 / 2 ^ 40 := by
      have h2 := hr.2
      rw [abs_of_nonneg h0] at h2
      have h3 := abs_add_le (LawfulFloat.val r - ρ) ρ
      rw [sub_add_cancel, abs_of_nonneg h0] at h3
      have h7 : (0 : ℝ) ≤ 7 * ulp := mul_nonneg (by norm_num) ulp_pos.le
      have h4 : 7 * ulp * ρ ≤ 7 * ulp * 1 := mul_le_mul_of_nonneg_left h1 h7
      have : (7 : ℝ) * (1 / 2 ^ 50) ≤ 1 / 2 ^ 40 := by norm_num
      linarith
    have hpow : |LawfulFloat.val r| ^ (n - 2 * s) ≤ 2 := by
      calc |LawfulFloat.val r| ^ (n - 2 * s) ≤ (1 + 1 / 2 ^ 40 : ℝ) ^ (n - 2 * s) := pow_le_pow_left₀ (abs_nonneg _) hv _
        _ ≤ (1 + 1 / 2 ^ 40 : ℝ) ^ 170 := pow_le_pow_right₀ (by norm_num) (by omega)
        _ ≤ 2 := by norm_num
    have hp := hM.powf r (ofInt ((n : ℤ) - 2 * s)) (n - 2 * s) hr.1 hk.1 (by
      rw [hk.2]; push_cast [Nat.cast_sub hs]; ring) (hpow.trans (by norm_num))
    refine within_of_val hp.1 _ ?_
    have h3 := abs_add_le (LawfulFloat.val (M.powf r (ofInt ((n : ℤ) - 2 * s))) - LawfulFloat.val r ^ (n - 2 * s))
      (LawfulFloat.val r ^ (n - 2 * s))
    rw [sub_add_cancel, abs_pow] at h3
    have ho : omega ≤ 1 := by unfold omega; norm_num
    have h5 : ulp * (|LawfulFloat.val r| ^ (n - 2 * s) + omega) ≤ 1 / 2 ^ 50 * 3 :=
      mul_le_mul hu (by linarith) (add_nonneg (by positivity) omega_pos.le) (by norm_num)
    have h6 : (1 / 2 ^ 50 * 3 : ℝ) ≤ 1 := by norm_num
    have := hp.2
    push_cast
    linarith

/-- The alternating sign. -/
theorem sign_within (M : Libm F64) (hM : M.Lawful) (s : Nat) (hs : s ≤ 2 ^ 53) :
    (M.powf (ofInt (-1)) (ofInt (s : ℤ))).Within (2 ^ 1) := by
  obtain ⟨h1, h2, _⟩ := sign_near M hM s hs
  refine within_of_val h1 _ ?_
  have h3 := abs_add_le (LawfulFloat.val (M.powf (ofInt (-1)) (ofInt (s : ℤ))) - (-1) ^ s) ((-1) ^ s)
  rw [sub_add_cancel, abs_pow, abs_neg, abs_one, one_pow] at h3
  have : 2 * ulp * 1 ≤ 1 := by unfold ulp; norm_num
  push_cast
  linarith

theorem radialSum_within (M : Libm F64) (hM : M.Lawful) (n m : Nat) (r : F64) (ρ : ℝ) (hn : n ≤ 170) (hm : m ≤ n)
    (hp : n % 2 = m % 2) (hr : Rel 7 r ρ) (h0 : 0 ≤ ρ) (h1 : ρ ≤ 1) :
    (radialSum M n m r ((n - m) / 2 + 1)).Within (2 ^ 352) := by
  have key : ∀ t ≤ (n - m) / 2 + 1, (radialSum M n m r t).Within (t * 2 ^ 344) := by
    intro t
    induction t with
    | zero => intro _; exact ⟨0, ofInt_zero64, by simp⟩
    | succ t ih =>
      intro ht
      refine F64.Within.accumulate (ih (by omega)) ?_ (by omega) (by norm_num)
      have hterm := (zQuot_within n m t hn hm hp (by omega)).mul (zTerm_within M hM n t r ρ hn (by omega) hr h0 h1) (by norm_num)
      exact ((sign_within M hM t (by omega)).mul hterm (by norm_num)).mono (by norm_num)
  refine (key _ le_rfl).mono ?_
  have h : (((n - m) / 2 + 1 : ℕ) : ℚ) ≤ 2 ^ 8 := by exact_mod_cast (by omega : (n - m) / 2 + 1 ≤ 2 ^ 8)
  rw [show 352 = 8 + 344 by norm_num, pow_add]
  gcongr

section
open LawfulFloat
theorem exp_re_near {F : Type} [FloatOps F] [LawfulFloat F] [IntExact F] (M : Libm F) (hM : M.Lawful) (m : Nat) (theta : F)
    (hm : m ≤ 2 ^ 53) (hf : fin theta) :
    fin (M.exp (FloatOps.mul (FloatOps.mul (ofInt 0) (ofInt (m : ℤ))) theta)) ∧
      |val (M.exp (FloatOps.mul (FloatOps.mul (ofInt 0) (ofInt (m : ℤ))) theta)) - 1| ≤ ulp := by
  have h0 : IsInt (ofInt 0 : F) 0 := isInt_ofInt _ (by norm_num)
  have hMi : IsInt (ofInt (m : ℤ) : F) m := isInt_ofInt _ (nat_abs_le _ hm)
  have hre : IsInt (FloatOps.mul (FloatOps.mul (ofInt 0) (ofInt (m : ℤ))) theta : F) 0 := (h0.zero_mul hMi.1).zero_mul hf
  have hexp := hM.exp _ hre.1 (by rw [hre.2]; simp)
  rw [hre.2, Int.cast_zero, Real.exp_zero, mul_one] at hexp
  exact hexp
end

theorem zvValue_within (M : Libm F64) (hM : M.Lawful) (m : Nat) (y theta : F64) (hm : m ≤ 170) (hy : y.Within (2 ^ 352))
    (hf : LawfulFloat.fin theta) (h4 : |LawfulFloat.val theta| ≤ 4) :
    (zvValue M m y theta).1.Within (2 ^ 354) ∧ (zvValue M m y theta).2.Within (2 ^ 354) := by
  have hMi : IsInt (ofInt (m : ℤ) : F64) m := isInt_ofInt _ (nat_abs_le _ (by omega))
  have hexp := exp_re_near M hM m theta (by omega) hf
  have hu : ulp ≤ 1 := by unfold ulp; norm_num
  have one_off : ∀ x c : ℝ, |x - c| ≤ ulp → |c| ≤ 1 → |x| ≤ ((2 ^ 1 : ℚ) : ℝ) := by
    intro x c h1 h2
    have h3 := abs_add_le (x - c) c
    rw [sub_add_cancel] at h3
    push_cast
    linarith
  have we : (M.exp (FloatOps.mul (FloatOps.mul (ofInt 0) (ofInt (m : ℤ))) theta)).Within (2 ^ 1) :=
    within_of_val hexp.1 _ (one_off _ 1 hexp.2 (by simp))
  have h1 : IsInt (ofInt 1 : F64) 1 := isInt_ofInt _ (by norm_num)
  have hmm : IsInt (FloatOps.mul (ofInt 1 : F64) (ofInt (m : ℤ))) m := by
    have := h1.mul hMi (by rw [one_mul]; exact nat_abs_le _ (by omega))
    rwa [one_mul] at this
  have wm : (FloatOps.mul (ofInt 1 : F64) (ofInt (m : ℤ))).Within (2 ^ 8) := within_of_val hmm.1 _ (by
    rw [hmm.2]
    push_cast
    rw [abs_of_nonneg (by positivity)]
    exact_mod_cast (by omega : m ≤ 256))
  have wt : theta.Within (2 ^ 2) := within_of_val hf _ (by push_cast; norm_num; exact h4)
  have him := wm.mul wt (by norm_num)
  have hfin : LawfulFloat.fin (FloatOps.mul (FloatOps.mul (ofInt 1 : F64) (ofInt (m : ℤ))) theta) ∧
      |LawfulFloat.val (FloatOps.mul (FloatOps.mul (ofInt 1 : F64) (ofInt (m : ℤ))) theta)| ≤ 2 ^ 20 := by
    obtain ⟨q, hq, hb⟩ := him
    rw [hq]
    refine ⟨trivial, ?_⟩
    have hb' : |(q : ℝ)| ≤ 2 ^ (8 + 2) := by exact_mod_cast hb
    exact hb'.trans (by norm_num)
  have hcos := hM.cos _ hfin.1 hfin.2
  have hsin := hM.sin _ hfin.1 hfin.2
  have wc : (M.cos (FloatOps.mul (FloatOps.mul (ofInt 1) (ofInt (m : ℤ))) theta)).Within (2 ^ 1) :=
    within_of_val hcos.1 _ (one_off _ _ hcos.2 (Real.abs_cos_le_one _))
  have ws : (M.sin (FloatOps.mul (FloatOps.mul (ofInt 1) (ofInt (m : ℤ))) theta)).Within (2 ^ 1) :=
    within_of_val hsin.1 _ (one_off _ _ hsin.2 (Real.abs_sin_le_one _))
  exact ⟨hy.mul (we.mul wc (by norm_num)) (by norm_num), hy.mul (we.mul ws (by norm_num)) (by norm_num)⟩

theorem entry_within (M : Libm F64) (hM : M.Lawful) (n m N i : Nat) (hn : n ≤ 170) (hm : m ≤ n) (hp : n % 2 = m % 2) (hN : 2 ≤ N)
    (hN2 : N ≤ 2 ^ 14) (hi : i < N * N) : (entryValue M n m N i).1.Within (2 ^ 354) ∧ (entryValue M n m N i).2.Within (2 ^ 354) := by
  have hrow := row_exact (F := F64) i N hN hN2 hi
  have hmod : i % N < N := Nat.mod_lt i (by omega)
  have hdiv : i / N < N := Nat.div_lt_of_lt_mul hi
  have hcol : IsInt (ofInt ((i % N + 1 : ℕ) : ℤ) : F64) ((i % N + 1 : ℕ) : ℤ) := isInt_ofInt _ (nat_abs_le _ (by omega))
  obtain ⟨hρ, hf, h4, _⟩ := toPolarF_near M hM N (i / N) (i % N) _ _ hN hN2 hdiv hmod hrow hcol
  have hw := zvValue_within M hM m _ _ (by omega)
    (radialSum_within M hM n m _ _ hn hm hp hρ (norm_nonneg _) (pixelPoint_norm_le N _ _ hN hdiv hmod)) hf h4
  exact ⟨hw.1, F64.Within.neg (isDouble_two_pow _ (by norm_num)) hw.2⟩

theorem pixel_within (v : UInt8) : (ofInt (v.toNat : ℤ) : F64).Within (2 ^ 8) := by
  have hv := v.toNat_lt
  refine ⟨(v.toNat : ℚ), ofInt_nat64 _ (by omega), ?_⟩
  rw [abs_of_nonneg (by positivity)]
  exact_mod_cast (by omega : v.toNat ≤ 2 ^ 8)

theorem integral_within (e : Nat → F64 × F64) (px : Nat → UInt8) (T : Nat) (hT : T ≤ 2 ^ 28)
    (h : ∀ k < T, (e k).1.Within (2 ^ 354) ∧ (e k).2.Within (2 ^ 354)) :
    (integralSum e px T).1.Within (2 ^ 390) ∧ (integralSum e px T).2.Within (2 ^ 390) := by
  have key : ∀ t ≤ T, (integralSum e px t).1.Within (t * 2 ^ 362) ∧ (integralSum e px t).2.Within (t * 2 ^ 362) := by
    intro t
    induction t with
    | zero => intro _; exact ⟨⟨0, ofInt_zero64, by simp⟩, ⟨0, ofInt_zero64, by simp⟩⟩
    | succ t ih =>
      intro ht
      obtain ⟨i1, i2⟩ := ih (by omega)
      obtain ⟨e1, e2⟩ := h t (by omega)
      exact ⟨F64.Within.accumulate i1 (e1.mul (pixel_within _) (by norm_num)) (by omega) (by norm_num),
        F64.Within.accumulate i2 (e2.mul (pixel_within _) (by norm_num)) (by omega) (by norm_num)⟩
  have hb : (T : ℚ) * 2 ^ 362 ≤ 2 ^ 390 := by
    have : (T : ℚ) ≤ 2 ^ 28 := by exact_mod_cast hT
    rw [show 390 = 28 + 362 by norm_num, pow_add]
    gcongr
  exact ⟨(key T le_rfl).1.mono hb, (key T le_rfl).2.mono hb⟩

theorem moment_within (n pixels : Nat) (s : F64 × F64) (hn : n ≤ 170) (hp1 : 1 ≤ pixels) (hp2 : pixels ≤ 2 ^ 28)
    (h : s.1.Within (2 ^ 390) ∧ s.2.Within (2 ^ 390)) :
    (momentValue n pixels s).1.Within (2 ^ 400) ∧ (momentValue n pixels s).2.Within (2 ^ 400) := by
  have e1 : FloatOps.add (ofInt (n : ℤ)) (ofInt 1) = F64.fin ((n + 1 : ℕ) : ℚ) := by
    rw [ofInt_nat64 n (by omega), show (1 : ℤ) = ((1 : ℕ) : ℤ) by norm_num, ofInt_nat64 1 (by norm_num), add_nat64 n 1 (by omega)]
  have epi : (piF : F64) = .fin (884279719003555 / 281474976710656) := by
    show F64.ofRat _ = _
    exact ofRat_self ⟨884279719003555, -48, by norm_num, by norm_num, by norm_num, by norm_num⟩
  have emul : (FloatOps.div (F64.fin ((n + 1 : ℕ) : ℚ)) piF).Within (2 ^ 8) := by
    rw [epi]
    have e : FloatOps.div (F64.fin ((n + 1 : ℕ) : ℚ)) (F64.fin (884279719003555 / 281474976710656)) =
        F64.ofRat (((n + 1 : ℕ) : ℚ) / (884279719003555 / 281474976710656)) := by
      show F64.div _ _ = _
      unfold F64.div
      dsimp only
      rw [if_neg (by norm_num)]
    rw [e]
    refine ofRat_within (isDouble_two_pow _ (by norm_num)) ?_
    rw [abs_of_nonneg (by positivity), div_le_iff₀ (by norm_num)]
    have : ((n + 1 : ℕ) : ℚ) ≤ 171 := by exact_mod_cast (by omega : n + 1 ≤ 171)
    refine this.trans ?_
    norm_num
  have hdiv : ∀ x : F64, x.Within (2 ^ 398) → (FloatOps.div x (ofInt (pixels : ℤ))).Within (2 ^ 400) := by
    rintro _ ⟨q, rfl, hq⟩
    rw [ofInt_nat64 pixels (by omega)]
    have hp : (1 : ℚ) ≤ (pixels : ℚ) := by exact_mod_cast hp1
    have e : FloatOps.div (F64.fin q) (F64.fin (pixels : ℚ)) = F64.ofRat (q / pixels) := by
      show F64.div _ _ = _
      unfold F64.div
      dsimp only
      rw [if_neg (by linarith)]
    rw [e]
    refine (ofRat_within (isDouble_two_pow 398 (by norm_num)) ?_).mono (pow_le_pow_right₀ (by norm_num) (by norm_num))
    rw [abs_div, abs_of_pos (by linarith : (0 : ℚ) < pixels)]
    exact (div_le_self (abs_nonneg q) hp).trans hq
  unfold momentValue
  rw [e1]
  exact ⟨hdiv _ (emul.mul h.1 (by norm_num)), hdiv _ (emul.mul h.2 (by norm_num))⟩

end Sia
