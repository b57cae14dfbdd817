import Verif.Lemmas.FloatNear
import Verif.Lemmas.RadialBound

/-! The radial function in machine arithmetic. -/
namespace Sia
open FloatOps LawfulFloat Finset

/-- Sum of the absolute values of the coefficients of the radial polynomial. -/
def coefSum (n m : Nat) : Nat := ∑ k ∈ range ((n - m) / 2 + 1), zCoef n m k

theorem coefSum_pos (n m : Nat) : 1 ≤ coefSum n m := by
  unfold coefSum
  have h : zCoef n m 0 ≤ ∑ k ∈ range ((n - m) / 2 + 1), zCoef n m k :=
    Finset.single_le_sum (f := fun k => zCoef n m k) (fun _ _ => Nat.zero_le _) (Finset.mem_range.mpr (by omega))
  exact le_trans (zCoef_pos n m 0 (by omega)) h

section
variable {F : Type} [FloatOps F] [LawfulFloat F] [IntExact F]

omit [IntExact F] in
theorem sign_near (M : Libm F) (hM : M.Lawful) (s : ℕ) (hs : s ≤ 2 ^ 53) :
    Approx 2 (M.powf (ofInt (-1)) (ofInt (s : ℤ))) ((-1) ^ s) 1 := by
  have h1 : IsInt (ofInt (-1) : F) (-1) := isInt_ofInt _ (by norm_num)
  have h2 : IsInt (ofInt (s : ℤ) : F) s := isInt_ofInt _ (nat_abs_le _ hs)
  have e1 : val (ofInt (-1) : F) = -1 := by rw [h1.2]; push_cast; rfl
  have e2 : |val (ofInt (-1) : F)| ^ s = 1 := by rw [e1]; simp
  have := hM.powf _ _ s h1.1 h2.1 (by rw [h2.2]; simp) (by rw [e2]; norm_num)
  rw [e2, e1] at this
  refine ⟨this.1, this.2.trans ?_, by simp⟩
  have := omega_tiny
  have := ulp_pos
  have : omega ≤ 1 := by norm_num at *; linarith
  nlinarith

/-- The partial sums of the radial polynomial. -/
theorem radialF_fold (M : Libm F) (hM : M.Lawful) (n m : ℕ) (a : F) (r : ℝ) (hn : n ≤ 40) (hm : m ≤ n) (hp : (n - m) % 2 = 0)
    (ha : Rel 7 a r) (hr0 : 0 ≤ r) (hr1 : r ≤ 1) : ∀ t : ℕ, t ≤ (n - m) / 2 + 1 →
    ∃ y, (List.range t).foldlM (radialStepF M n m a) (ofInt 0) = .ok y ∧
      Approx (9 * n + 9 + t) y (∑ k ∈ range t, (-1) ^ k * (zCoef n m k * r ^ (n - 2 * k))) (∑ k ∈ range t, (zCoef n m k : ℝ)) := by
  have hn' : (n : ℝ) ≤ 40 := by exact_mod_cast hn
  intro t
  induction t with
  | zero =>
    intro _
    refine ⟨_, rfl, ?_⟩
    have h0 : IsInt (ofInt 0 : F) 0 := isInt_ofInt _ (by norm_num)
    refine ⟨h0.1, ?_, ?_⟩
    · rw [h0.2]; simp
    · simp
  | succ t ih =>
    intro ht
    obtain ⟨acc, hacc, hnear⟩ := ih (by omega)
    have ht2 : t ≤ (n - m) / 2 := by omega
    obtain ⟨y, hy, hyfin, hyerr⟩ := zfF_near M hM n m t a r hn hm hp ht2 ha hr0 hr1
    have hc1 : (1 : ℝ) ≤ (zCoef n m t : ℝ) := by exact_mod_cast zCoef_pos n m t ht2
    have hc2 := zCoef_le n m t hn
    have hrp : r ^ (n - 2 * t) ≤ 1 := pow_le_one₀ hr0 hr1
    have hrp0 : 0 ≤ r ^ (n - 2 * t) := by positivity
    have ny : Approx (9 * n + 6) y (zCoef n m t * r ^ (n - 2 * t)) (zCoef n m t) := by
      refine ⟨hyfin, hyerr, ?_⟩
      rw [abs_of_nonneg (by positivity)]
      nlinarith
    have hσ := sign_near M hM t (by omega)
    have ulp1 : ulp ≤ 1 / 2 ^ 50 := by unfold ulp; norm_num
    have nm := hσ.mul ny (by norm_num) (by positivity) (by norm_num) (by norm_num; linarith)
      (by
        have : (2 : ℝ) * (9 * n + 6) * ulp ≤ 1000 * (1 / 2 ^ 50) := mul_le_mul (by linarith) ulp1 ulp_pos.le (by norm_num)
        refine this.trans ?_
        norm_num)
      (by rw [one_mul]; refine le_trans ?_ hc1; norm_num) (by rw [one_mul]; refine hc2.trans ?_; norm_num)
    rw [one_mul] at nm
    have ht' : (t : ℝ) ≤ 40 := by exact_mod_cast (by omega : t ≤ 40)
    have nm2 : Approx (9 * n + 9 + t) (FloatOps.mul (M.powf (ofInt (-1)) (ofInt (t : ℤ))) y) ((-1) ^ t * (zCoef n m t * r ^ (n - 2 * t)))
        (zCoef n m t) := nm.mono le_rfl (by positivity) (by have : (0 : ℝ) ≤ t := by positivity
                                                            linarith)
    have hsum0 : (0 : ℝ) ≤ ∑ k ∈ range t, (zCoef n m k : ℝ) := Finset.sum_nonneg fun _ _ => by positivity
    have hsum1 : ∑ k ∈ range t, (zCoef n m k : ℝ) ≤ 40 * 2 ^ 80 := by
      have := Finset.sum_le_card_nsmul (range t) (fun k => (zCoef n m k : ℝ)) (2 ^ 80) (fun k _ => zCoef_le n m k hn)
      rw [card_range, nsmul_eq_mul] at this
      refine this.trans ?_
      gcongr
    have res := hnear.add nm2 (by norm_num; linarith) (by positivity) (by refine le_trans ?_ (le_add_of_nonneg_of_le hsum0 hc1); norm_num)
      (by refine (add_le_add hsum1 hc2).trans ?_; norm_num)
    refine ⟨FloatOps.add acc (FloatOps.mul (M.powf (ofInt (-1)) (ofInt (t : ℤ))) y), ?_, ?_⟩
    · rw [List.range_succ, List.foldlM_append, hacc]
      show (radialStepF M n m a acc t >>= fun s' => pure s') = _
      rw [bind_pure]
      unfold radialStepF
      rw [hy]
      rfl
    · rw [Finset.sum_range_succ, Finset.sum_range_succ]
      push_cast
      rw [← add_assoc]
      exact res

theorem radialF_near (M : Libm F) (hM : M.Lawful) (n m : ℕ) (a : F) (r : ℝ) (hn : n ≤ 40) (hm : m ≤ n) (hp : n % 2 = m % 2)
    (ha : Rel 7 a r) (hr0 : 0 ≤ r) (hr1 : r ≤ 1) :
    ∃ y, radialF M n m a = .ok y ∧ fin y ∧ |val y - zernikeRadial n m r| ≤ (10 * n + 10) * ulp * coefSum n m := by
  have hp' : (n - m) % 2 = 0 := by omega
  obtain ⟨y, hy, hnear⟩ := radialF_fold M hM n m a r hn hm hp' ha hr0 hr1 ((n - m) / 2 + 1) le_rfl
  refine ⟨y, ?_, hnear.1, ?_⟩
  · unfold radialF
    have hN : IsInt (ofInt (n : ℤ) : F) n := isInt_ofInt _ (nat_abs_le _ (by omega))
    have hMi : IsInt (ofInt (m : ℤ) : F) m := isInt_ofInt _ (nat_abs_le _ (by omega))
    have h2 : IsInt (ofInt 2 : F) 2 := isInt_ofInt _ (by norm_num)
    have t1 := hN.sub hMi (by rw [abs_of_nonneg (by omega)]; omega)
    have t2 := (t1.div (k := ((n - m) / 2 : ℕ)) h2 (by norm_num) (by omega) (nat_abs_le _ (by omega))).floor
    have ht : truncSat 0 (2 ^ 64 - 1) (FloatOps.floor (FloatOps.div (FloatOps.sub (ofInt (n : ℤ) : F) (ofInt (m : ℤ))) (ofInt 2))) =
        (((n - m) / 2 : ℕ) : ℤ) := by
      rw [truncSat_spec _ _ _ t2.1, t2.2]
      have : truncZ ((((n - m) / 2 : ℕ) : ℤ) : ℝ) = (((n - m) / 2 : ℕ) : ℤ) := by unfold truncZ; split <;> simp
      rw [this]
      unfold clampZ
      split_ifs <;> omega
    dsimp only
    rw [ht, Int.toNat_natCast]
    exact hy
  · have e : ∑ k ∈ range ((n - m) / 2 + 1), (-1) ^ k * ((zCoef n m k : ℝ) * r ^ (n - 2 * k)) = zernikeRadial n m r := by
      unfold zernikeRadial
      apply Finset.sum_congr rfl
      intro k _
      unfold zCoef
      push_cast
      ring
    have h := hnear.2.1
    rw [e] at h
    refine h.trans ?_
    have hcs : (∑ k ∈ range ((n - m) / 2 + 1), (zCoef n m k : ℝ)) = (coefSum n m : ℝ) := by unfold coefSum; push_cast; rfl
    rw [hcs]
    apply mul_le_mul_of_nonneg_right _ (by positivity)
    apply mul_le_mul_of_nonneg_right _ ulp_pos.le
    have : (((n - m) / 2 + 1 : ℕ) : ℝ) ≤ n + 1 := by exact_mod_cast (by omega : (n - m) / 2 + 1 ≤ n + 1)
    linarith

/-- As `radialF_near`, on the scale 1 of the polynomial itself. -/
theorem radialF_near_one (M : Libm F) (hM : M.Lawful) (n m : ℕ) (a : F) (r : ℝ) (hn : n ≤ 40) (hm : m ≤ n) (hp : n % 2 = m % 2)
    (ha : Rel 7 a r) (hr0 : 0 ≤ r) (hr1 : r ≤ 1) :
    ∃ y, radialF M n m a = .ok y ∧ Approx ((10 * n + 10) * coefSum n m) y (zernikeRadial n m r) 1 := by
  obtain ⟨y, hy, hf, he⟩ := radialF_near M hM n m a r hn hm hp ha hr0 hr1
  refine ⟨y, hy, hf, he.trans (le_of_eq (by ring)), zernikeRadial_bound n m hm hp r hr0 hr1⟩

end
end Sia
