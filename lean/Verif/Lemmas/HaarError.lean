import Verif.Lemmas.HaarLemmas
import Verif.Lemmas.CellLemmas

/-! Rounding error analysis of the Haar transform. -/
namespace Sia
open FloatOps LawfulFloat

theorem rt_le' : rt ≤ 71 / 100 := by
  have := rt_sq
  have := rt_pos
  nlinarith

theorem abs_sgn (p : Bool) : |sgn p| = 1 := by unfold sgn; cases p <;> simp

theorem butterfly_real_abs (p : Bool) (x y M : ℝ) (hx : |x| ≤ M) (hy : |y| ≤ M) : |butterfly p x y| ≤ 142 / 100 * M := by
  rw [butterfly_real]
  have h1 : |rt * x| ≤ rt * M := by rw [abs_mul, abs_of_pos rt_pos]; exact mul_le_mul_of_nonneg_left hx rt_pos.le
  have h2 : |sgn p * rt * y| ≤ rt * M := by
    rw [abs_mul, abs_mul, abs_sgn, one_mul, abs_of_pos rt_pos]; exact mul_le_mul_of_nonneg_left hy rt_pos.le
  have h3 := abs_add_le (rt * x) (sgn p * rt * y)
  have hM : 0 ≤ M := le_trans (abs_nonneg _) hx
  have := mul_le_mul_of_nonneg_right rt_le' hM
  linarith

theorem butterfly_real_sub (p : Bool) (x y x' y' : ℝ) :
    butterfly p x y - butterfly p x' y' = butterfly p (x - x') (y - y') := by
  simp only [butterfly_real]; ring

section
variable {F : Type} [FloatOps F] [LawfulFloat F]

theorem scaled_err (x : F) (hx : fin x) (M : ℝ) (hM1 : 1 ≤ M) (hM2 : M ≤ 2 ^ 150) (hxM : |val x| ≤ M) :
    fin (mul frac1Sqrt2 x) ∧ |val (mul frac1Sqrt2 x) - rt * val x| ≤ u F * (2 * M) ∧
      |val (mul frac1Sqrt2 x)| ≤ 72 / 100 * M := by
  have hu := u_nonneg (F := F)
  have hu1 := u_le (F := F)
  obtain ⟨cf, cerr⟩ := frac_spec (F := F)
  change |val (frac1Sqrt2 : F) - rt| ≤ u F at cerr
  have hw : omega ≤ 1 / 100 := by unfold omega; norm_num
  have h53 : (1 : ℝ) / 2 ^ 53 ≤ 1 / 1000 := by norm_num
  have cabs : |val (frac1Sqrt2 : F)| ≤ 72 / 100 := by
    have := abs_add_le (val (frac1Sqrt2 : F) - rt) rt
    rw [sub_add_cancel, abs_of_pos rt_pos] at this
    have := rt_le'
    linarith
  have hprod : |val (frac1Sqrt2 : F) * val x| ≤ 72 / 100 * M := by
    rw [abs_mul]; exact mul_le_mul cabs hxM (abs_nonneg _) (by norm_num)
  obtain ⟨mf, merr⟩ := mul_spec (frac1Sqrt2 : F) x cf hx (le_trans hprod (by norm_num at hM2 ⊢; linarith))
  have e1 : |val (frac1Sqrt2 : F) * val x - rt * val x| ≤ u F * M := by
    rw [← sub_mul, abs_mul]; exact mul_le_mul cerr hxM (abs_nonneg _) hu
  have e2 : u F * (|val (frac1Sqrt2 : F) * val x| + omega) ≤ u F * (73 / 100 * M) := mul_le_mul_of_nonneg_left (by linarith) hu
  have e3 : |val (mul frac1Sqrt2 x) - rt * val x| ≤ u F * (173 / 100 * M) := by
    have h := abs_add_le (val (mul frac1Sqrt2 x) - val (frac1Sqrt2 : F) * val x) (val (frac1Sqrt2 : F) * val x - rt * val x)
    rw [sub_add_sub_cancel] at h
    calc _ ≤ u F * (73 / 100 * M) + u F * M := by linarith
      _ = _ := by ring
  refine ⟨mf, le_trans e3 (mul_le_mul_of_nonneg_left (by linarith) hu), ?_⟩
  have h := abs_add_le (val (mul frac1Sqrt2 x) - rt * val x) (rt * val x)
  rw [sub_add_cancel] at h
  have h2 : |rt * val x| ≤ 71 / 100 * M := by
    rw [abs_mul, abs_of_pos rt_pos]; exact mul_le_mul rt_le' hxM (abs_nonneg _) (by norm_num)
  have h3 : u F * (173 / 100 * M) ≤ 1 / 1000 * (173 / 100 * M) := mul_le_mul_of_nonneg_right (by linarith) (by linarith)
  linarith

theorem butterfly_err (p : Bool) (x y : F) (hx : fin x) (hy : fin y) (M : ℝ) (hM1 : 1 ≤ M) (hM2 : M ≤ 2 ^ 150)
    (hxM : |val x| ≤ M) (hyM : |val y| ≤ M) :
    fin (butterfly p x y) ∧ |val (butterfly p x y) - butterfly p (val x) (val y)| ≤ 8 * u F * M ∧
      |val (butterfly p x y)| ≤ 3 / 2 * M := by
  have hu := u_nonneg (F := F)
  have hu1 := u_le (F := F)
  have h53 : (1 : ℝ) / 2 ^ 53 ≤ 1 / 1000 := by norm_num
  have hw : omega ≤ 1 / 100 := by unfold omega; norm_num
  obtain ⟨xf, xe, xa⟩ := scaled_err x hx M hM1 hM2 hxM
  obtain ⟨yf, ye, ya⟩ := scaled_err y hy M hM1 hM2 hyM
  have main : fin (butterfly p x y) ∧ |val (butterfly p x y) - (val (mul frac1Sqrt2 x) + sgn p * val (mul frac1Sqrt2 y))|
      ≤ u F * (145 / 100 * M) := by
    have hs : |val (mul frac1Sqrt2 x) + sgn p * val (mul frac1Sqrt2 y)| ≤ 144 / 100 * M := by
      have := abs_add_le (val (mul frac1Sqrt2 x)) (sgn p * val (mul frac1Sqrt2 y))
      rw [abs_mul, abs_sgn, one_mul] at this
      linarith
    have hb : (144 / 100 * M : ℝ) ≤ 2 ^ 200 := by norm_num at hM2 ⊢; linarith
    unfold butterfly
    cases p
    · have e : val (mul (frac1Sqrt2 : F) x) + sgn false * val (mul frac1Sqrt2 y) =
          val (mul (frac1Sqrt2 : F) x) - val (mul frac1Sqrt2 y) := by unfold sgn; simp; ring
      rw [e] at hs ⊢
      obtain ⟨h1, h2⟩ := sub_spec _ _ xf yf (le_trans hs hb)
      exact ⟨by simpa using h1, by
        simp only [Bool.false_eq_true, if_false]
        exact le_trans h2 (mul_le_mul_of_nonneg_left (by linarith) hu)⟩
    · have e : val (mul (frac1Sqrt2 : F) x) + sgn true * val (mul frac1Sqrt2 y) =
          val (mul (frac1Sqrt2 : F) x) + val (mul frac1Sqrt2 y) := by unfold sgn; simp
      rw [e] at hs ⊢
      obtain ⟨h1, h2⟩ := add_spec _ _ xf yf (le_trans hs hb)
      exact ⟨by simpa using h1, by
        simp only [if_true]
        exact le_trans h2 (mul_le_mul_of_nonneg_left (by linarith) hu)⟩
  obtain ⟨bf, be⟩ := main
  have herr : |val (butterfly p x y) - butterfly p (val x) (val y)| ≤ 8 * u F * M := by
    rw [butterfly_real]
    have h1 := abs_add_le (val (butterfly p x y) - (val (mul frac1Sqrt2 x) + sgn p * val (mul frac1Sqrt2 y)))
      ((val (mul (frac1Sqrt2 : F) x) + sgn p * val (mul frac1Sqrt2 y)) - (rt * val x + sgn p * rt * val y))
    rw [sub_add_sub_cancel] at h1
    have h2 : |(val (mul (frac1Sqrt2 : F) x) + sgn p * val (mul frac1Sqrt2 y)) - (rt * val x + sgn p * rt * val y)|
        ≤ u F * (2 * M) + u F * (2 * M) := by
      have := abs_add_le (val (mul (frac1Sqrt2 : F) x) - rt * val x) (sgn p * (val (mul (frac1Sqrt2 : F) y) - rt * val y))
      rw [abs_mul, abs_sgn, one_mul] at this
      rw [show (val (mul (frac1Sqrt2 : F) x) + sgn p * val (mul frac1Sqrt2 y)) - (rt * val x + sgn p * rt * val y) =
        (val (mul (frac1Sqrt2 : F) x) - rt * val x) + sgn p * (val (mul (frac1Sqrt2 : F) y) - rt * val y) by ring]
      linarith
    have h3 : 0 ≤ u F * M := mul_nonneg hu (by linarith)
    nlinarith
  refine ⟨bf, herr, ?_⟩
  have h1 := abs_add_le (val (butterfly p x y) - butterfly p (val x) (val y)) (butterfly p (val x) (val y))
  rw [sub_add_cancel] at h1
  have h2 := butterfly_real_abs p (val x) (val y) M hxM hyM
  have h3 : 8 * u F * M ≤ 8 * (1 / 1000) * M := mul_le_mul_of_nonneg_right (by linarith) (by linarith)
  linarith

/-- The float matrix `a` is within `e` of the real matrix `x` and bounded by `M`, on `R x C` entries. -/
def Near (R C : Nat) (e M : ℝ) (a : Nat → Nat → F) (x : Nat → Nat → ℝ) : Prop :=
  ∀ i < R, ∀ j < C, fin (a i j) ∧ |val (a i j) - x i j| ≤ e ∧ |val (a i j)| ≤ M

theorem butterfly_near (p : Bool) (a b : F) (x y e M : ℝ) (hM1 : 1 ≤ M) (hM2 : M ≤ 2 ^ 150)
    (ha : fin a ∧ |val a - x| ≤ e ∧ |val a| ≤ M) (hb : fin b ∧ |val b - y| ≤ e ∧ |val b| ≤ M) :
    fin (butterfly p a b) ∧ |val (butterfly p a b) - butterfly p x y| ≤ 3 / 2 * e + 8 * u F * M ∧
      |val (butterfly p a b)| ≤ 3 / 2 * M := by
  obtain ⟨h1, h2, h3⟩ := butterfly_err p a b ha.1 hb.1 M hM1 hM2 ha.2.2 hb.2.2
  refine ⟨h1, ?_, h3⟩
  have h4 := butterfly_real_abs p (val a - x) (val b - y) e ha.2.1 hb.2.1
  rw [← butterfly_real_sub] at h4
  have h5 := abs_add_le (val (butterfly p a b) - butterfly p (val a) (val b)) (butterfly p (val a) (val b) - butterfly p x y)
  rw [sub_add_sub_cancel] at h5
  have he : 0 ≤ e := le_trans (abs_nonneg _) ha.2.1
  linarith

theorem near_grow {a : F} {x e M : ℝ} (hM1 : 1 ≤ M) (h : fin a ∧ |val a - x| ≤ e ∧ |val a| ≤ M) :
    fin a ∧ |val a - x| ≤ 3 / 2 * e + 8 * u F * M ∧ |val a| ≤ 3 / 2 * M := by
  have he : 0 ≤ e := le_trans (abs_nonneg _) h.2.1
  have hu : 0 ≤ u F * M := mul_nonneg (u_nonneg (F := F)) (by linarith)
  exact ⟨h.1, by linarith [h.2.1], by linarith [h.2.2]⟩

theorem rowPass_near (R C w h : Nat) (hw : w ≤ R) (hh : h ≤ C) (he : h % 2 = 0) (b : Bool) (e M : ℝ) (hM1 : 1 ≤ M)
    (hM2 : M ≤ 2 ^ 150) (a : Nat → Nat → F) (x : Nat → Nat → ℝ) (hn : Near R C e M a x) :
    Near R C (3 / 2 * e + 8 * u F * M) (3 / 2 * M) (rowPass w h b a) (rowPass w h b x) := by
  intro i hi j hj
  rw [rowPass_eq, rowPass_eq]
  by_cases hc : i < w ∧ j < h
  · have a1 := srcA_lt b he hc.2
    have a2 := srcB_lt b he hc.2
    rw [if_pos hc, if_pos hc]
    exact butterfly_near _ _ _ _ _ e M hM1 hM2 (hn i hi _ (by omega)) (hn i hi _ (by omega))
  · rw [if_neg hc, if_neg hc]; exact near_grow hM1 (hn i hi j hj)

theorem colPass_near (R C w h : Nat) (hw : w ≤ R) (hh : h ≤ C) (he : w % 2 = 0) (b : Bool) (e M : ℝ) (hM1 : 1 ≤ M)
    (hM2 : M ≤ 2 ^ 150) (a : Nat → Nat → F) (x : Nat → Nat → ℝ) (hn : Near R C e M a x) :
    Near R C (3 / 2 * e + 8 * u F * M) (3 / 2 * M) (colPass w h b a) (colPass w h b x) := by
  intro i hi j hj
  rw [colPass_eq, colPass_eq]
  by_cases hc : i < w ∧ j < h
  · have a1 := srcA_lt b he hc.1
    have a2 := srcB_lt b he hc.1
    rw [if_pos hc, if_pos hc]
    exact butterfly_near _ _ _ _ _ e M hM1 hM2 (hn _ (by omega) j hj) (hn _ (by omega) j hj)
  · rw [if_neg hc, if_neg hc]; exact near_grow hM1 (hn i hi j hj)

theorem Near.mono {R C : Nat} {e e' M M' : ℝ} {a : Nat → Nat → F} {x : Nat → Nat → ℝ} (h : Near R C e M a x)
    (he : e ≤ e') (hM : M ≤ M') : Near R C e' M' a x := fun i hi j hj =>
  ⟨(h i hi j hj).1, le_trans (h i hi j hj).2.1 he, le_trans (h i hi j hj).2.2 hM⟩

/-- One iteration, in the closed form of the error after `n` passes. -/
theorem stepT_near (R C w h : Nat) (hw : w ≤ R) (hh : h ≤ C) (hwe : w % 2 = 0) (hhe : h % 2 = 0) (b : Bool) (e M : ℝ)
    (n : Nat) (hM1 : 1 ≤ M) (hM2 : (3 / 2) ^ (n + 2) * M ≤ 2 ^ 150) (a : Nat → Nat → F) (x : Nat → Nat → ℝ)
    (hn : Near R C ((3 / 2) ^ n * (e + 8 * n * u F * M)) ((3 / 2) ^ n * M) a x) (he : 0 ≤ e) :
    Near R C ((3 / 2) ^ (n + 2) * (e + 8 * (n + 2 : ℕ) * u F * M)) ((3 / 2) ^ (n + 2) * M) (stepT b w h a) (stepT b w h x) := by
  have hu := u_nonneg (F := F)
  have hp : (1 : ℝ) ≤ (3 / 2) ^ n := one_le_pow₀ (by norm_num)
  have hpM : 1 ≤ (3 / 2) ^ n * M := le_trans hM1 (le_mul_of_one_le_left (by linarith) hp)
  have huM : 0 ≤ u F * M := mul_nonneg hu (by linarith)
  have hM2' : (3 / 2) * ((3 / 2) * ((3 / 2) ^ n * M)) ≤ 2 ^ 150 := by
    refine le_trans (le_of_eq ?_) hM2
    rw [pow_add]; ring
  have h1 := rowPass_near R C w h hw hh hhe b _ _ hpM (by linarith) a x hn
  have h2 := colPass_near R C w h hw hh hwe b _ _ (by linarith) (by linarith) _ _ h1
  unfold stepT
  refine h2.mono ?_ (le_of_eq (by rw [pow_add]; ring))
  rw [pow_add]
  push_cast
  nlinarith [mul_nonneg (by linarith : (0 : ℝ) ≤ (3 / 2) ^ n) huM]

theorem fwdN_near (R C L : Nat) (hr : 2 ^ L ∣ R) (hc : 2 ^ L ∣ C) (e M : ℝ) (he : 0 ≤ e) (hM1 : 1 ≤ M)
    (hM2 : (3 / 2) ^ (2 * L) * M ≤ 2 ^ 150) (a : Nat → Nat → F) (x : Nat → Nat → ℝ) (hn : Near R C e M a x) : ∀ k ≤ L,
    Near R C ((3 / 2) ^ (2 * k) * (e + 8 * (2 * k : ℕ) * u F * M)) ((3 / 2) ^ (2 * k) * M) (fwdN R C k a) (fwdN R C k x) := by
  intro k
  induction k with
  | zero => intro _; exact hn.mono (by simp) (by simp)
  | succ k ih =>
    intro hk
    have hpow : ((3 : ℝ) / 2) ^ (2 * k + 2) * M ≤ 2 ^ 150 := le_trans
      (mul_le_mul_of_nonneg_right (pow_le_pow_right₀ (by norm_num) (by omega)) (by linarith)) hM2
    exact stepT_near R C _ _ (Nat.div_le_self _ _) (Nat.div_le_self _ _) (pow_div_even hr (show k < L by omega))
      (pow_div_even hc (show k < L by omega)) false e M (2 * k) hM1 hpow _ _ (ih (by omega)) he

theorem bwdN_near' (R C L : Nat) (hr : 2 ^ L ∣ R) (hc : 2 ^ L ∣ C) (e M : ℝ) (he : 0 ≤ e) (hM1 : 1 ≤ M)
    (hM2 : (3 / 2) ^ (2 * L) * M ≤ 2 ^ 150) : ∀ k ≤ L, ∀ (a : Nat → Nat → F) (x : Nat → Nat → ℝ),
    Near R C ((3 / 2) ^ (2 * (L - k)) * (e + 8 * (2 * (L - k) : ℕ) * u F * M)) ((3 / 2) ^ (2 * (L - k)) * M) a x →
    Near R C ((3 / 2) ^ (2 * L) * (e + 8 * (2 * L : ℕ) * u F * M)) ((3 / 2) ^ (2 * L) * M) (bwdN R C k a) (bwdN R C k x) := by
  intro k
  induction k with
  | zero => intro _ a x h; simpa [bwdN] using h
  | succ k ih =>
    intro hk a x h
    have e1 : L - k = L - (k + 1) + 1 := by omega
    have hpow : ((3 : ℝ) / 2) ^ (2 * (L - (k + 1)) + 2) * M ≤ 2 ^ 150 := le_trans
      (mul_le_mul_of_nonneg_right (pow_le_pow_right₀ (by norm_num) (by omega)) (by linarith)) hM2
    have h1 := stepT_near R C _ _ (Nat.div_le_self R (2 ^ k)) (Nat.div_le_self C (2 ^ k)) (pow_div_even hr (show k < L by omega))
      (pow_div_even hc (show k < L by omega)) true e M (2 * (L - (k + 1))) hM1 hpow a x h he
    rw [bwdN, bwdN]
    apply ih (by omega)
    rw [e1]
    exact h1

theorem bwdN_near (R C L : Nat) (hr : 2 ^ L ∣ R) (hc : 2 ^ L ∣ C) (e M : ℝ) (he : 0 ≤ e) (hM1 : 1 ≤ M)
    (hM2 : (3 / 2) ^ (2 * L) * M ≤ 2 ^ 150) (a : Nat → Nat → F) (x : Nat → Nat → ℝ) (h : Near R C e M a x) :
    Near R C ((3 / 2) ^ (2 * L) * (e + 8 * (2 * L : ℕ) * u F * M)) ((3 / 2) ^ (2 * L) * M) (bwdN R C L a) (bwdN R C L x) := by
  apply bwdN_near' R C L hr hc e M he hM1 hM2 L le_rfl
  simpa using h

end
end Sia
