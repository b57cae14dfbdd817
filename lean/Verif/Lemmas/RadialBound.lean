import Verif.Spec.ZernikeSpec
import Mathlib.Algebra.Polynomial.Coeff
import Mathlib.Algebra.Polynomial.BigOperators
import Mathlib.Algebra.BigOperators.Fin
import Mathlib.Algebra.BigOperators.Ring.Finset
import Mathlib.Algebra.Order.BigOperators.Ring.Finset
import Mathlib.Algebra.Order.Chebyshev
import Mathlib.Data.Nat.Choose.Vandermonde
import Mathlib.Tactic.LinearCombination
import Mathlib.Tactic.Ring
import Mathlib.Tactic.Linarith

/-! The radial Zernike polynomials are bounded by 1 on `[0, 1]`: `R_n^m(cos t)` is a diagonal entry of the `n`-th tensor
power of the rotation by `t`, averaged over index sets of size `(n-m)/2`. -/
namespace Sia
open Finset Polynomial

/-- Entry `(i ∈ S, i ∈ T)` of the rotation. -/
noncomputable def rot (c s : ℝ) (a b : Prop) [Decidable a] [Decidable b] : ℝ :=
  if a then (if b then c else s) else (if b then -s else c)

/-- Entry of the tensor power. -/
noncomputable def tens (c s : ℝ) {n : ℕ} (S T : Finset (Fin n)) : ℝ := ∏ i, rot c s (i ∈ S) (i ∈ T)

theorem rot_orth (c s : ℝ) (h : c ^ 2 + s ^ 2 = 1) (a b : Prop) [Decidable a] [Decidable b] :
    rot c s True a * rot c s True b + rot c s False a * rot c s False b = if (a ↔ b) then 1 else 0 := by
  unfold rot
  by_cases ha : a <;> by_cases hb : b <;> simp [ha, hb] <;> nlinarith

/-- Sum over all index sets of a product. -/
theorem sum_sets {n : ℕ} (f g : Fin n → ℝ) :
    ∑ S : Finset (Fin n), ∏ i, (if i ∈ S then f i else g i) = ∏ i, (f i + g i) := by
  rw [Finset.prod_add, ← Finset.powerset_univ]
  apply Finset.sum_congr rfl
  intro S _
  rw [Finset.prod_ite, Finset.filter_mem_eq_inter, Finset.univ_inter, Finset.filter_not, Finset.filter_mem_eq_inter,
    Finset.univ_inter]

theorem tens_orth (c s : ℝ) (h : c ^ 2 + s ^ 2 = 1) {n : ℕ} (T T' : Finset (Fin n)) :
    ∑ S : Finset (Fin n), tens c s S T * tens c s S T' = if T = T' then 1 else 0 := by
  have e : ∀ S : Finset (Fin n), tens c s S T * tens c s S T' = ∏ i, (if i ∈ S then
      rot c s True (i ∈ T) * rot c s True (i ∈ T') else rot c s False (i ∈ T) * rot c s False (i ∈ T')) := by
    intro S
    unfold tens
    rw [← Finset.prod_mul_distrib]
    apply Finset.prod_congr rfl
    intro i _
    unfold rot
    by_cases hi : i ∈ S <;> simp [hi]
  rw [Finset.sum_congr rfl (fun S _ => e S), sum_sets]
  simp only [rot_orth c s h]
  split_ifs with hT
  · subst hT; simp
  · obtain ⟨i, hi⟩ : ∃ i, ¬ (i ∈ T ↔ i ∈ T') := by
      by_contra hc; push Not at hc; exact hT (Finset.ext hc)
    exact Finset.prod_eq_zero (Finset.mem_univ i) (if_neg hi)

/-- The sum of a column over sets of size `q` is a polynomial coefficient. -/
theorem column_sum (c s : ℝ) {n : ℕ} (q : ℕ) (T : Finset (Fin n)) :
    ∑ S ∈ (Finset.univ : Finset (Finset (Fin n))).filter (fun S => S.card = q), tens c s S T =
      ((C s * X + C c) ^ (n - T.card) * (C c * X + C (-s)) ^ T.card).coeff q := by
  have hpoly : (∏ i : Fin n, (C (rot c s True (i ∈ T)) * X + C (rot c s False (i ∈ T)) : ℝ[X])) =
      (C s * X + C c) ^ (n - T.card) * (C c * X + C (-s)) ^ T.card := by
    have : ∀ i : Fin n, (C (rot c s True (i ∈ T)) * X + C (rot c s False (i ∈ T)) : ℝ[X]) =
        if i ∈ T then C c * X + C (-s) else C s * X + C c := by
      intro i; unfold rot; by_cases hi : i ∈ T <;> simp [hi]
    rw [Finset.prod_congr rfl (fun i _ => this i), Finset.prod_ite, Finset.prod_const, Finset.prod_const, mul_comm]
    congr 2
    · rw [Finset.filter_not, Finset.filter_mem_eq_inter, Finset.univ_inter, Finset.card_univ_diff, Fintype.card_fin]
    · rw [Finset.filter_mem_eq_inter, Finset.univ_inter]
  rw [← hpoly, Finset.prod_add, Polynomial.finset_sum_coeff, Finset.powerset_univ, Finset.sum_filter]
  apply Finset.sum_congr rfl
  intro S _
  have e1 : (∏ i ∈ S, (C (rot c s True (i ∈ T)) * X : ℝ[X])) * ∏ i ∈ Finset.univ \ S, (C (rot c s False (i ∈ T)) : ℝ[X]) =
      C (tens c s S T) * X ^ S.card := by
    rw [Finset.prod_mul_distrib, Finset.prod_const]
    have : tens c s S T = (∏ i ∈ S, rot c s True (i ∈ T)) * ∏ i ∈ Finset.univ \ S, rot c s False (i ∈ T) := by
      unfold tens
      rw [← Finset.prod_sdiff (Finset.subset_univ S), mul_comm]
      congr 1
      · apply Finset.prod_congr rfl
        intro i hi; unfold rot; simp [hi]
      · apply Finset.prod_congr rfl
        intro i hi
        have hi' : i ∉ S := (Finset.mem_sdiff.mp hi).2
        unfold rot; simp [hi']
    rw [this, map_mul, map_prod, map_prod]
    ring
  rw [e1, Polynomial.coeff_C_mul_X_pow]
  by_cases hq : S.card = q
  · simp [hq]
  · rw [if_neg hq, if_neg (fun h => hq h.symm)]

/-- The coefficient is bounded by 1. -/
theorem coeff_bound (c s : ℝ) (h : c ^ 2 + s ^ 2 = 1) (p q : ℕ) :
    |((C s * X + C c : ℝ[X]) ^ p * (C c * X + C (-s)) ^ q).coeff q| ≤ 1 := by
  set r := ((C s * X + C c : ℝ[X]) ^ p * (C c * X + C (-s)) ^ q).coeff q with hr
  set n := p + q with hn
  set Q := (Finset.univ : Finset (Finset (Fin n))).filter (fun S => S.card = q) with hQ
  have hcard : (Q.card : ℝ) = (n.choose q : ℝ) := by
    have : Q = (Finset.univ : Finset (Fin n)).powersetCard q := by
      ext S; simp [hQ, Finset.mem_powersetCard]
    rw [this, Finset.card_powersetCard, Finset.card_univ, Fintype.card_fin]
  have hpos : (0 : ℝ) < Q.card := by
    rw [hcard]; exact_mod_cast Nat.choose_pos (by omega)
  -- column sums
  have hcol : ∀ T ∈ Q, ∑ S ∈ Q, tens c s S T = r := by
    intro T hT
    have hTc : T.card = q := (Finset.mem_filter.mp hT).2
    rw [column_sum c s q T, hTc, hr, show n - q = p by omega]
  have htotal : ∑ S ∈ Q, ∑ T ∈ Q, tens c s S T = Q.card * r := by
    rw [Finset.sum_comm, Finset.sum_congr rfl hcol, Finset.sum_const, nsmul_eq_mul]
  -- norm of the image of the indicator
  have hnorm : ∑ S : Finset (Fin n), (∑ T ∈ Q, tens c s S T) ^ 2 = Q.card := by
    have : ∀ S : Finset (Fin n), (∑ T ∈ Q, tens c s S T) ^ 2 = ∑ T ∈ Q, ∑ T' ∈ Q, tens c s S T * tens c s S T' := by
      intro S; rw [sq, Finset.sum_mul_sum]
    rw [Finset.sum_congr rfl (fun S _ => this S), Finset.sum_comm]
    have e2 : ∀ T ∈ Q, ∑ S : Finset (Fin n), ∑ T' ∈ Q, tens c s S T * tens c s S T' = 1 := by
      intro T hT
      rw [Finset.sum_comm, Finset.sum_congr rfl (fun T' _ => tens_orth c s h T T')]
      simp [hT]
    rw [Finset.sum_congr rfl e2]
    simp
  have hcs : (∑ S ∈ Q, ∑ T ∈ Q, tens c s S T) ^ 2 ≤ Q.card * ∑ S ∈ Q, (∑ T ∈ Q, tens c s S T) ^ 2 :=
    sq_sum_le_card_mul_sum_sq
  have hsub : ∑ S ∈ Q, (∑ T ∈ Q, tens c s S T) ^ 2 ≤ Q.card := by
    rw [← hnorm]
    exact Finset.sum_le_univ_sum_of_nonneg (fun S => sq_nonneg _)
  rw [htotal] at hcs
  have h2 : (Q.card * r : ℝ) ^ 2 ≤ (Q.card : ℝ) * Q.card :=
    hcs.trans (mul_le_mul_of_nonneg_left hsub hpos.le)
  have h3 : r ^ 2 ≤ 1 := by
    have h4 : (Q.card : ℝ) ^ 2 * r ^ 2 ≤ (Q.card : ℝ) ^ 2 * 1 := by nlinarith
    exact le_of_mul_le_mul_left h4 (by positivity)
  exact abs_le_one_iff_mul_self_le_one.mpr (by nlinarith)

theorem linear_pow_coeff (a b : ℝ) (p k : ℕ) : ((C a * X + C b : ℝ[X]) ^ p).coeff k = p.choose k * a ^ k * b ^ (p - k) := by
  rw [add_pow, Polynomial.finset_sum_coeff]
  have : ∀ i ∈ Finset.range (p + 1), ((C a * X) ^ i * (C b) ^ (p - i) * (p.choose i : ℝ[X]) : ℝ[X]).coeff k =
      if i = k then p.choose k * a ^ k * b ^ (p - k) else 0 := by
    intro i _
    have e : ((C a * X) ^ i * (C b) ^ (p - i) * (p.choose i : ℝ[X]) : ℝ[X]) = C (a ^ i * b ^ (p - i) * p.choose i) * X ^ i := by
      rw [mul_pow, map_mul, map_mul, map_pow, map_pow, map_natCast]; ring
    rw [e, Polynomial.coeff_C_mul_X_pow]
    by_cases hik : i = k
    · subst hik; simp; ring
    · rw [if_neg hik, if_neg (fun h => hik h.symm)]
  rw [Finset.sum_congr rfl this, Finset.sum_ite_eq']
  split_ifs with hk
  · rfl
  · have : p.choose k = 0 := Nat.choose_eq_zero_of_lt (by simp at hk; omega)
    rw [this]; simp

/-- The coefficient in closed form. -/
theorem coeff_closed (c s : ℝ) (p q : ℕ) (hqp : q ≤ p) :
    ((C s * X + C c : ℝ[X]) ^ p * (C c * X + C (-s)) ^ q).coeff q =
      ∑ k ∈ range (q + 1), (-1) ^ k * (q.choose k : ℝ) * (p.choose k : ℝ) * c ^ (p + q - 2 * k) * (s ^ 2) ^ k := by
  rw [Polynomial.coeff_mul, Finset.Nat.sum_antidiagonal_eq_sum_range_succ_mk]
  apply Finset.sum_congr rfl
  intro k hk
  have hk' : k ≤ q := by have := mem_range.mp hk; omega
  rw [linear_pow_coeff, linear_pow_coeff, Nat.choose_symm hk', show q - (q - k) = k by omega,
    show p + q - 2 * k = (p - k) + (q - k) by omega, pow_add, neg_pow s, ← pow_mul, two_mul, pow_add]
  ring

/-- Vandermonde. -/
theorem vandermonde_shift (q r l : ℕ) (hl : l ≤ q) :
    ∑ k ∈ range (q + 1), q.choose k * (if l ≤ k then r.choose (k - l) else 0) = (q + r).choose (q - l) := by
  rw [Nat.add_choose_eq, Finset.Nat.sum_antidiagonal_eq_sum_range_succ_mk]
  have h1 : ∑ k ∈ range (q + 1), q.choose k * (if l ≤ k then r.choose (k - l) else 0) =
      ∑ j ∈ range (q + 1 - l), q.choose (l + j) * r.choose j := by
    rw [← Finset.sum_range_add_sum_Ico _ (show l ≤ q + 1 by omega)]
    rw [Finset.sum_eq_zero (fun k hk => by rw [if_neg (by have := mem_range.mp hk; omega), mul_zero]), zero_add,
      Finset.sum_Ico_eq_sum_range]
    apply Finset.sum_congr rfl
    intro j _
    rw [if_pos (by omega), Nat.add_sub_cancel_left]
  rw [h1, show q + 1 - l = q - l + 1 by omega, ← Finset.sum_range_reflect]
  apply Finset.sum_congr rfl
  intro j hj
  have hj' : j ≤ q - l := by have := mem_range.mp hj; omega
  dsimp only
  rw [show q - l + 1 - 1 - j = q - l - j by omega, show l + (q - l - j) = q - j by omega, Nat.choose_symm (by omega)]

/-- The radial polynomial in terms of `r` and `1 - r^2`. -/
theorem zernikeRadial_closed (n m : ℕ) (hm : m ≤ n) (hp : n % 2 = m % 2) (r : ℝ) :
    zernikeRadial n m r = ∑ k ∈ range ((n - m) / 2 + 1),
      (-1) ^ k * (((n - m) / 2).choose k : ℝ) * (((n + m) / 2).choose k : ℝ) * r ^ (n - 2 * k) * (1 - r ^ 2) ^ k := by
  set q := (n - m) / 2 with hq
  set p := (n + m) / 2 with hpp
  have hn : n = p + q := by omega
  have hqp : q ≤ p := by omega
  have hterm : ∀ k ∈ range (q + 1), (-1 : ℝ) ^ k * (q.choose k : ℝ) * (p.choose k : ℝ) * r ^ (n - 2 * k) * (1 - r ^ 2) ^ k =
      ∑ l ∈ range (q + 1), (-1) ^ l * (p.choose l : ℝ) *
        ((q.choose k * (if l ≤ k then (p - l).choose (k - l) else 0) : ℕ) : ℝ) * r ^ (n - 2 * l) := by
    intro k hk
    have hk' : k ≤ q := by have := mem_range.mp hk; omega
    have hexp : (1 - r ^ 2) ^ k = ∑ l ∈ range (k + 1), (k.choose l : ℝ) * (-(r ^ 2)) ^ (k - l) := by
      rw [sub_eq_add_neg, add_pow]
      apply Finset.sum_congr rfl
      intro l _
      rw [one_pow]; ring
    rw [hexp, Finset.mul_sum]
    rw [← Finset.sum_range_add_sum_Ico _ (show k + 1 ≤ q + 1 by omega)]
    rw [Finset.sum_eq_zero (s := Finset.Ico (k + 1) (q + 1)) (fun l hl => by
      rw [if_neg (by have := (Finset.mem_Ico.mp hl).1; omega)]; simp), add_zero]
    apply Finset.sum_congr rfl
    intro l hl
    have hl' : l ≤ k := by have := mem_range.mp hl; omega
    rw [if_pos hl']
    have hch : (p.choose k : ℝ) * (k.choose l : ℝ) = (p.choose l : ℝ) * ((p - l).choose (k - l) : ℝ) := by
      exact_mod_cast Nat.choose_mul hl'
    have hsign : (-1 : ℝ) ^ k * (-(r ^ 2)) ^ (k - l) = (-1) ^ l * r ^ (2 * (k - l)) := by
      rw [neg_pow (r ^ 2), ← pow_mul, ← mul_assoc, ← pow_add]
      congr 1
      rw [show k + (k - l) = l + 2 * (k - l) by omega, pow_add, pow_mul]; norm_num
    have hpow : r ^ (n - 2 * k) * r ^ (2 * (k - l)) = r ^ (n - 2 * l) := by
      rw [← pow_add]; congr 1; omega
    push_cast
    calc _ = ((-1 : ℝ) ^ k * (-(r ^ 2)) ^ (k - l)) * (q.choose k : ℝ) * ((p.choose k : ℝ) * (k.choose l : ℝ)) * r ^ (n - 2 * k) := by ring
      _ = (-1) ^ l * (q.choose k : ℝ) * ((p.choose l : ℝ) * ((p - l).choose (k - l) : ℝ)) * (r ^ (n - 2 * k) * r ^ (2 * (k - l))) := by
        rw [hsign, hch]; ring
      _ = _ := by rw [hpow]; ring
  rw [Finset.sum_congr rfl hterm, Finset.sum_comm]
  unfold zernikeRadial
  rw [← hq]
  apply Finset.sum_congr rfl
  intro l hl
  have hl' : l ≤ q := by have := mem_range.mp hl; omega
  rw [← Finset.sum_mul, ← Finset.mul_sum, ← Nat.cast_sum, vandermonde_shift q (p - l) l hl', show q + (p - l) = n - l by omega]
  have hch : (p.choose l : ℝ) * ((n - l).choose (q - l) : ℝ) = ((n - l).choose l : ℝ) * ((n - 2 * l).choose (q - l) : ℝ) := by
    have h1 : (n - l).choose p * p.choose l = (n - l).choose l * (n - l - l).choose (p - l) :=
      Nat.choose_mul (by omega)
    have h2 : (n - l).choose p = (n - l).choose (q - l) := by
      rw [← Nat.choose_symm (show p ≤ n - l by omega)]; congr 1; omega
    have h3 : (n - l - l).choose (p - l) = (n - 2 * l).choose (q - l) := by
      rw [show n - l - l = n - 2 * l by omega, ← Nat.choose_symm (show p - l ≤ n - 2 * l by omega)]; congr 1; omega
    rw [h2, h3] at h1
    rw [mul_comm]
    exact_mod_cast h1
  push_cast
  linear_combination (-((-1 : ℝ) ^ l * r ^ (n - 2 * l))) * hch

/-- The radial polynomials are bounded by 1 on `[0, 1]`. -/
theorem zernikeRadial_bound (n m : ℕ) (hm : m ≤ n) (hp : n % 2 = m % 2) (r : ℝ) (h0 : 0 ≤ r) (h1 : r ≤ 1) :
    |zernikeRadial n m r| ≤ 1 := by
  have hs : 0 ≤ 1 - r ^ 2 := by nlinarith
  have h := coeff_bound r (Real.sqrt (1 - r ^ 2)) (by rw [Real.sq_sqrt hs]; ring) ((n + m) / 2) ((n - m) / 2)
  rw [coeff_closed _ _ _ _ (by omega), Real.sq_sqrt hs, show (n + m) / 2 + (n - m) / 2 = n by omega,
    ← zernikeRadial_closed n m hm hp r] at h
  exact h

end Sia
