import Verif.Lemmas.PolarFloat
import Verif.Lemmas.RadialFloat

/-! The Zernike function and its matrix in machine arithmetic. -/
namespace Sia
open FloatOps LawfulFloat

theorem pow_sub_le (u v : ℂ) (hu : ‖u‖ = 1) (hv : ‖v‖ = 1) (m : ℕ) : ‖u ^ m - v ^ m‖ ≤ m * ‖u - v‖ := by
  induction m with
  | zero => simp
  | succ m ih =>
    have e : u ^ (m + 1) - v ^ (m + 1) = u ^ m * (u - v) + (u ^ m - v ^ m) * v := by ring
    rw [e]
    refine (norm_add_le _ _).trans ?_
    rw [norm_mul, norm_mul, norm_pow, hu, hv, one_pow, one_mul, mul_one]
    push_cast
    linarith

section
variable {F : Type} [FloatOps F] [LawfulFloat F] [IntExact F]

/-- The angular factor `e^{i m θ}`. -/
theorem angular_near (M : Libm F) (hM : M.Lawful) (m : ℕ) (θ : F) (φ : ℝ) (hm : m ≤ 40) (hf : fin θ) (h4 : |val θ| ≤ 4)
    (hθ : ‖Complex.exp (val θ * Complex.I) - Complex.exp (φ * Complex.I)‖ ≤ 10 * ulp) :
    Approx (14 * m + 1) (M.cos (FloatOps.mul (FloatOps.mul (ofInt 1) (ofInt (m : ℤ))) θ)) (Complex.exp (m * φ * Complex.I)).re 1 ∧
    Approx (14 * m + 1) (M.sin (FloatOps.mul (FloatOps.mul (ofInt 1) (ofInt (m : ℤ))) θ)) (Complex.exp (m * φ * Complex.I)).im 1 := by
  have hp := ulp_pos
  have hu : ulp ≤ 1 / 2 ^ 50 := by unfold ulp; norm_num
  have h1 : IsInt (ofInt 1 : F) 1 := isInt_ofInt _ (by norm_num)
  have hM' : IsInt (ofInt (m : ℤ) : F) m := isInt_ofInt _ (nat_abs_le _ (by omega))
  have hmm : IsInt (FloatOps.mul (ofInt 1 : F) (ofInt (m : ℤ))) m := by
    have := h1.mul hM' (by rw [one_mul]; exact nat_abs_le _ (by omega))
    rwa [one_mul] at this
  have hmr : (m : ℝ) ≤ 40 := by exact_mod_cast hm
  have ev : val (FloatOps.mul (ofInt 1 : F) (ofInt (m : ℤ))) = (m : ℝ) := by rw [hmm.2]; simp
  have habs : |(m : ℝ) * val θ| ≤ 4 * m := by
    rw [abs_mul, abs_of_nonneg (by positivity : (0 : ℝ) ≤ m)]
    nlinarith [abs_nonneg (val θ)]
  -- the product m θ
  have him : fin (FloatOps.mul (FloatOps.mul (ofInt 1 : F) (ofInt (m : ℤ))) θ) ∧
      |val (FloatOps.mul (FloatOps.mul (ofInt 1 : F) (ofInt (m : ℤ))) θ) - m * val θ| ≤ 4 * m * ulp := by
    rcases Nat.eq_zero_or_pos m with h0 | h0
    · have hz : IsInt (FloatOps.mul (ofInt 1 : F) (ofInt (m : ℤ))) 0 := by rw [h0] at hmm ⊢; exact_mod_cast hmm
      have := hz.zero_mul hf
      refine ⟨this.1, ?_⟩
      rw [this.2, h0]; simp
    · have hs := mul_spec _ θ hmm.1 hf (by
        rw [ev]; refine habs.trans ?_
        have : (4 : ℝ) * m ≤ 160 := by linarith
        refine this.trans ?_
        norm_num)
      rw [ev] at hs
      refine ⟨hs.1, hs.2.trans ?_⟩
      have hm1 : (1 : ℝ) ≤ m := by exact_mod_cast h0
      have ho : omega ≤ 1 := by have := omega_tiny; norm_num at this ⊢; linarith
      have := mul_le_mul (u_le_half_ulp (F := F)) (add_le_add habs ho) (add_nonneg (abs_nonneg _) omega_pos.le) (by positivity)
      refine this.trans ?_
      nlinarith
  set im := FloatOps.mul (FloatOps.mul (ofInt 1 : F) (ofInt (m : ℤ))) θ
  have him20 : |val im| ≤ 2 ^ 20 := by
    have t := abs_add_le (val im - m * val θ) (m * val θ)
    rw [sub_add_cancel] at t
    have t2 : 4 * (m : ℝ) * ulp ≤ 160 * 1 := mul_le_mul (by linarith) (hu.trans (by norm_num)) hp.le (by norm_num)
    norm_num
    linarith [him.2]
  -- the exact exponential
  have he : ‖Complex.exp (val im * Complex.I) - Complex.exp (m * φ * Complex.I)‖ ≤ 14 * m * ulp := by
    have t1 := expI_sub_le (val im) (m * val θ)
    have t2 : ‖Complex.exp (((m * val θ : ℝ) : ℂ) * Complex.I) - Complex.exp (m * φ * Complex.I)‖ ≤ m * (10 * ulp) := by
      have e1 : Complex.exp (((m * val θ : ℝ) : ℂ) * Complex.I) = Complex.exp (val θ * Complex.I) ^ m := by
        rw [← Complex.exp_nat_mul]; congr 1; push_cast; ring
      have e2 : Complex.exp (m * φ * Complex.I) = Complex.exp (φ * Complex.I) ^ m := by
        rw [← Complex.exp_nat_mul]; congr 1; ring
      rw [e1, e2]
      refine (pow_sub_le _ _ (Complex.norm_exp_ofReal_mul_I _) (Complex.norm_exp_ofReal_mul_I _) m).trans ?_
      exact mul_le_mul_of_nonneg_left hθ (by positivity)
    have t3 := norm_sub_le_norm_sub_add_norm_sub (Complex.exp (val im * Complex.I)) (Complex.exp (((m * val θ : ℝ) : ℂ) * Complex.I))
      (Complex.exp (m * φ * Complex.I))
    linarith [him.2]
  have hn1 : ‖Complex.exp (m * φ * Complex.I)‖ = 1 := by
    have := Complex.norm_exp_ofReal_mul_I (m * φ)
    push_cast at this
    exact this
  have hcos := hM.cos im him.1 him20
  have hsin := hM.sin im him.1 him20
  have ecos : (Complex.exp (val im * Complex.I)).re = Real.cos (val im) := Complex.exp_ofReal_mul_I_re _
  have esin : (Complex.exp (val im * Complex.I)).im = Real.sin (val im) := Complex.exp_ofReal_mul_I_im _
  constructor
  · refine ⟨hcos.1, ?_, (Complex.abs_re_le_norm _).trans hn1.le⟩
    have t1 := Complex.abs_re_le_norm (Complex.exp (val im * Complex.I) - Complex.exp (m * φ * Complex.I))
    rw [Complex.sub_re, ecos] at t1
    have t2 := abs_sub_le (val (M.cos im)) (Real.cos (val im)) (Complex.exp (m * φ * Complex.I)).re
    linarith [hcos.2]
  · refine ⟨hsin.1, ?_, (Complex.abs_im_le_norm _).trans hn1.le⟩
    have t1 := Complex.abs_im_le_norm (Complex.exp (val im * Complex.I) - Complex.exp (m * φ * Complex.I))
    rw [Complex.sub_im, esin] at t1
    have t2 := abs_sub_le (val (M.sin im)) (Real.sin (val im)) (Complex.exp (m * φ * Complex.I)).im
    linarith [hsin.2]

/-- The accuracy of a computed Zernike function, in units in the last place of 1. -/
def entryError (n m : Nat) : ℝ := (10 * n + 10) * coefSum n m + 14 * m + 4

theorem entryError_pos (n m : Nat) : 0 ≤ entryError n m := by unfold entryError; positivity

/-- `V_n^m` at a pixel, in machine arithmetic. -/
theorem zvF_near (M : Libm F) (hM : M.Lawful) (n m : ℕ) (ρ θ : F) (z : ℂ) (hn : n ≤ 40) (hm : m ≤ n) (hp : n % 2 = m % 2)
    (hK : entryError n m ≤ 2 ^ 39) (hρ : Rel 7 ρ ‖z‖) (hz : ‖z‖ ≤ 1) (hf : fin θ) (h4 : |val θ| ≤ 4)
    (hθ : ‖Complex.exp (val θ * Complex.I) - Complex.exp (Complex.arg z * Complex.I)‖ ≤ 10 * ulp) :
    ∃ w, zvF M n m ρ θ = .ok w ∧ Approx (entryError n m) w.1 (zernikeV n m z).re 1 ∧ Approx (entryError n m) w.2 (zernikeV n m z).im 1 := by
  obtain ⟨y, hy, hyn⟩ := radialF_near_one M hM n m ρ ‖z‖ hn hm hp hρ (norm_nonneg _) hz
  have hmr : (m : ℝ) ≤ 40 := by exact_mod_cast hm.trans hn
  obtain ⟨hc, hs⟩ := angular_near M hM m θ (Complex.arg z) (hm.trans hn) hf h4 hθ
  have hp1 := ulp_pos
  have hu : ulp ≤ 1 / 2 ^ 52 := by unfold ulp; norm_num
  have h0 : IsInt (ofInt 0 : F) 0 := isInt_ofInt _ (by norm_num)
  have hMi : IsInt (ofInt (m : ℤ) : F) m := isInt_ofInt _ (nat_abs_le _ (by omega))
  have hre : IsInt (FloatOps.mul (FloatOps.mul (ofInt 0) (ofInt (m : ℤ))) θ : F) 0 := (h0.zero_mul hMi.1).zero_mul hf
  have hexp := hM.exp _ hre.1 (by rw [hre.2]; simp)
  rw [hre.2, Int.cast_zero, Real.exp_zero, mul_one] at hexp
  have hmod : Approx 1 (M.exp (FloatOps.mul (FloatOps.mul (ofInt 0) (ofInt (m : ℤ))) θ : F)) 1 1 :=
    ⟨hexp.1, by rw [one_mul, mul_one]; exact hexp.2, by simp⟩
  have hKy : (10 * (n : ℝ) + 10) * coefSum n m ≤ 2 ^ 39 := by
    refine le_trans ?_ hK
    unfold entryError
    have : (0 : ℝ) ≤ 14 * m := by positivity
    linarith
  have hC0 : (0 : ℝ) ≤ (10 * n + 10) * coefSum n m := by positivity
  have comb : ∀ (c : F) (v : ℝ), Approx (14 * m + 1) c v 1 →
      Approx (entryError n m) (FloatOps.mul y (FloatOps.mul (M.exp (FloatOps.mul (FloatOps.mul (ofInt 0) (ofInt (m : ℤ))) θ : F)) c))
        (zernikeRadial n m ‖z‖ * v) 1 := by
    intro c v hcv
    have t1 := hmod.mul hcv (by norm_num) (by positivity) (by norm_num) (by norm_num; linarith) (by
      have : 1 * (14 * (m : ℝ) + 1) * ulp ≤ 1000 * (1 / 2 ^ 52) := mul_le_mul (by linarith) hu hp1.le (by norm_num)
      refine this.trans ?_
      norm_num) (by norm_num) (by norm_num)
    rw [one_mul, one_mul] at t1
    have t2 := hyn.mul t1 (by positivity) (by positivity) (hKy.trans (by norm_num)) (by norm_num; linarith) (by
      have t3 : (10 * (n : ℝ) + 10) * coefSum n m * (1 + (14 * m + 1) + 1) ≤ 2 ^ 39 * 600 :=
        mul_le_mul hKy (by linarith) (by positivity) (by norm_num)
      have t4 := mul_le_mul t3 hu hp1.le (by norm_num)
      refine t4.trans ?_
      norm_num) (by norm_num) (by norm_num)
    rw [one_mul] at t2
    refine t2.mono le_rfl (by positivity) (le_of_eq ?_)
    unfold entryError
    ring
  have ere : (zernikeV n m z).re = zernikeRadial n m ‖z‖ * (Complex.exp (m * Complex.arg z * Complex.I)).re := by
    unfold zernikeV; rw [Complex.re_ofReal_mul]
  have eim : (zernikeV n m z).im = zernikeRadial n m ‖z‖ * (Complex.exp (m * Complex.arg z * Complex.I)).im := by
    unfold zernikeV; rw [Complex.im_ofReal_mul]
  refine ⟨(FloatOps.mul y (FloatOps.mul (M.exp (FloatOps.mul (FloatOps.mul (ofInt 0) (ofInt (m : ℤ))) θ : F))
        (M.cos (FloatOps.mul (FloatOps.mul (ofInt 1) (ofInt (m : ℤ))) θ))),
      FloatOps.mul y (FloatOps.mul (M.exp (FloatOps.mul (FloatOps.mul (ofInt 0) (ofInt (m : ℤ))) θ : F))
        (M.sin (FloatOps.mul (FloatOps.mul (ofInt 1) (ofInt (m : ℤ))) θ)))), ?_, ?_, ?_⟩
  · unfold zvF
    rw [hy]
    rfl
  · rw [ere]; exact comb _ _ hc
  · rw [eim]; exact comb _ _ hs

/-- The row of a pixel, computed by a division in machine arithmetic. -/
theorem row_exact (i N : ℕ) (hN : 2 ≤ N) (hN2 : N ≤ 2 ^ 14) (hi : i < N * N) :
    IsInt (FloatOps.add (FloatOps.floor (FloatOps.div (ofInt (i : ℤ)) (ofInt (N : ℤ)))) (ofInt 1) : F) ((i / N + 1 : ℕ) : ℤ) := by
  have hNN : N * N ≤ 2 ^ 14 * 2 ^ 14 := Nat.mul_le_mul hN2 hN2
  have hi2 : i < 2 ^ 28 := lt_of_lt_of_le hi (hNN.trans (by norm_num))
  have hI : IsInt (ofInt (i : ℤ) : F) i := isInt_ofInt _ (nat_abs_le _ (by omega))
  have hNi : IsInt (ofInt (N : ℤ) : F) N := isInt_ofInt _ (nat_abs_le _ (by omega))
  have h1 : IsInt (ofInt 1 : F) 1 := isInt_ofInt _ (by norm_num)
  have hq : i / N < N := Nat.div_lt_of_lt_mul hi
  have hfl : IsInt (FloatOps.floor (FloatOps.div (ofInt (i : ℤ)) (ofInt (N : ℤ))) : F) ((i / N : ℕ) : ℤ) := by
    by_cases hb : i % N = 0
    · have hdiv : IsInt (FloatOps.div (ofInt (i : ℤ)) (ofInt (N : ℤ)) : F) ((i / N : ℕ) : ℤ) := by
        refine hI.div hNi (by omega) ?_ (nat_abs_le _ (by omega))
        have := Nat.div_add_mod i N
        rw [hb, add_zero] at this
        rw [mul_comm]
        exact_mod_cast this.symm
      exact hdiv.floor
    · have hN0 : (0 : ℝ) < N := by exact_mod_cast (by omega : 0 < N)
      have hNr : (N : ℝ) ≤ 2 ^ 14 := by exact_mod_cast hN2
      have ei : val (ofInt (i : ℤ) : F) = (i : ℝ) := by rw [hI.2]; simp
      have eN : val (ofInt (N : ℤ) : F) = (N : ℝ) := by rw [hNi.2]; simp
      have hmod : ((i / N : ℕ) : ℝ) * N + ((i % N : ℕ) : ℝ) = i := by
        have := Nat.div_add_mod i N
        rw [mul_comm]
        exact_mod_cast this
      have hb1 : (1 : ℝ) ≤ ((i % N : ℕ) : ℝ) := by exact_mod_cast Nat.pos_of_ne_zero hb
      have hb2 : ((i % N : ℕ) : ℝ) + 1 ≤ N := by exact_mod_cast Nat.mod_lt i (by omega)
      have hqN : (i : ℝ) / N ≤ 2 ^ 14 := by
        rw [div_le_iff₀ hN0]
        have : (i : ℝ) < (N : ℝ) * N := by exact_mod_cast hi
        nlinarith
      have hq0 : 0 ≤ (i : ℝ) / N := by positivity
      have hsp := div_spec (ofInt (i : ℤ) : F) (ofInt (N : ℤ)) hI.1 hNi.1 (by rw [eN]; exact hN0.ne') (by
        rw [ei, eN, abs_of_nonneg hq0]; exact hqN.trans (by norm_num))
      rw [ei, eN, abs_of_nonneg hq0] at hsp
      have hom : omega ≤ 1 := by have := omega_tiny; norm_num at this ⊢; linarith
      have herr : |val (FloatOps.div (ofInt (i : ℤ)) (ofInt (N : ℤ)) : F) - (i : ℝ) / N| ≤ 1 / 2 ^ 30 := by
        refine hsp.2.trans ?_
        have := mul_le_mul (u_le (F := F)) (add_le_add hqN hom) (add_nonneg hq0 omega_pos.le) (by norm_num)
        refine this.trans ?_
        norm_num
      have hinv : 1 / 2 ^ 14 ≤ 1 / (N : ℝ) := one_div_le_one_div_of_le hN0 hNr
      have hlo : ((i / N : ℕ) : ℝ) + 1 / N ≤ (i : ℝ) / N := by
        rw [le_div_iff₀ hN0, add_mul, one_div_mul_cancel hN0.ne']; linarith
      have hhi : (i : ℝ) / N ≤ ((i / N : ℕ) : ℝ) + 1 - 1 / N := by
        rw [div_le_iff₀ hN0, sub_mul, add_mul, one_div_mul_cancel hN0.ne']; linarith
      have hab := abs_le.mp herr
      have hfs := floor_spec _ hsp.1
      refine ⟨hfs.1, ?_⟩
      rw [hfs.2]
      congr 1
      rw [Int.floor_eq_iff, Int.cast_natCast]
      have c : (1 : ℝ) / 2 ^ 30 < 1 / 2 ^ 14 := by norm_num
      constructor <;> linarith [hab.1, hab.2]
  have := hfl.add h1 (by rw [abs_of_nonneg (by positivity)]; omega)
  push_cast
  exact_mod_cast this

/-- One entry of the Zernike matrix. -/
theorem zernikeEntryF_near (M : Libm F) (hM : M.Lawful) (n m N i : ℕ) (hn : n ≤ 40) (hm : m ≤ n) (hp : n % 2 = m % 2)
    (hK : entryError n m ≤ 2 ^ 39) (hN : 2 ≤ N) (hN2 : N ≤ 2 ^ 14) (hi : i < N * N) :
    ∃ w, zernikeEntryF M n m N i = .ok w ∧
      Approx (entryError n m + 1) w.1 ((starRingEnd ℂ) (zernikeV n m (pixelPoint N (i / N) (i % N)))).re 1 ∧
      Approx (entryError n m + 1) w.2 ((starRingEnd ℂ) (zernikeV n m (pixelPoint N (i / N) (i % N)))).im 1 := by
  have hrow := row_exact (F := F) i N hN hN2 hi
  have hmod : i % N < N := Nat.mod_lt i (by omega)
  have hdiv : i / N < N := Nat.div_lt_of_lt_mul hi
  have hcol : IsInt (ofInt ((i % N + 1 : ℕ) : ℤ) : F) ((i % N + 1 : ℕ) : ℤ) := isInt_ofInt _ (nat_abs_le _ (by omega))
  obtain ⟨hρ, hf, h4, hθ⟩ := toPolarF_near M hM N (i / N) (i % N) _ _ hN hN2 hdiv hmod hrow hcol
  obtain ⟨w, hw, h1, h2⟩ := zvF_near M hM n m _ _ _ hn hm hp hK hρ (pixelPoint_norm_le N _ _ hN hdiv hmod) hf h4 hθ
  have hE := entryError_pos n m
  refine ⟨(w.1, FloatOps.sub (ofInt 0) w.2), ?_, ?_, ?_⟩
  · unfold zernikeEntryF
    dsimp only
    rw [hw]
    rfl
  · rw [Complex.conj_re]
    exact h1.mono le_rfl hE (by linarith)
  · rw [Complex.conj_im]
    exact h2.neg (hK.trans (by norm_num)) hE (by norm_num) (by norm_num)

end
end Sia
