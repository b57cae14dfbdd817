import Verif.Props.HaarProps

/-! C57: what every coefficient of the wavelet transform is, not only the low-low corner. -/
namespace Sia
open FloatOps LawfulFloat Finset

/-- Sum of the samples of the `s x s` block at block coordinates `(p, q)`. -/
noncomputable def squareSum (m : Mat ℝ) (s p q : Nat) : ℝ :=
  ∑ a ∈ range s, ∑ b ∈ range s, m.get (p * s + a) (q * s + b)

theorem stepT_outside (w h : Nat) (b : Bool) (m : Nat → Nat → ℝ) (i j : Nat) (hij : ¬ (i < w ∧ j < h)) :
    stepT b w h m i j = m i j := by
  unfold stepT
  rw [colPass_eq, if_neg hij, rowPass_eq, if_neg hij]

theorem fwdN_stable (R C : Nat) (m : Nat → Nat → ℝ) (k i j : Nat) (hij : ¬ (i < R / 2 ^ k ∧ j < C / 2 ^ k)) :
    ∀ d, fwdN R C (k + d) m i j = fwdN R C k m i j := by
  intro d
  induction d with
  | zero => rfl
  | succ d ih =>
    rw [← Nat.add_assoc, fwdN, stepT_outside, ih]
    rintro ⟨h1, h2⟩
    apply hij
    have e1 : R / 2 ^ (k + d) ≤ R / 2 ^ k := Nat.div_le_div_left (pow_le_pow_right₀ (by norm_num) (by omega)) (by positivity)
    have e2 : C / 2 ^ (k + d) ≤ C / 2 ^ k := Nat.div_le_div_left (pow_le_pow_right₀ (by norm_num) (by omega)) (by positivity)
    exact ⟨lt_of_lt_of_le h1 e1, lt_of_lt_of_le h2 e2⟩

theorem stepT_bands (w h : Nat) (hw : w % 2 = 0) (hh : h % 2 = 0) (m : Nat → Nat → ℝ) (i j : Nat) (hi : i < w / 2)
    (hj : j < h / 2) (vi vj : Bool) :
    stepT false w h m (if vi then w / 2 + i else i) (if vj then h / 2 + j else j) =
      (m (2 * i) (2 * j) + sgn (!vj) * m (2 * i) (2 * j + 1) + sgn (!vi) * m (2 * i + 1) (2 * j)
        + sgn (!vi) * sgn (!vj) * m (2 * i + 1) (2 * j + 1)) / 2 := by
  have hrt := rt_sq
  set I := if vi then w / 2 + i else i with hI
  set J := if vj then h / 2 + j else j with hJ
  have sA : ∀ (n x : Nat) (v : Bool), x < n / 2 → srcA n false (if v then n / 2 + x else x) = 2 * x := by
    intro n x v hx; unfold srcA; cases v <;> simp [hx]
  have sB : ∀ (n x : Nat) (v : Bool), x < n / 2 → srcB n false (if v then n / 2 + x else x) = 2 * x + 1 := by
    intro n x v hx; unfold srcB; cases v <;> simp [hx]
  have sP : ∀ (n x : Nat) (v : Bool), x < n / 2 → srcPlus n false (if v then n / 2 + x else x) = !v := by
    intro n x v hx; unfold srcPlus; cases v <;> simp [hx]
  have hIw : I < w := by rw [hI]; split_ifs <;> omega
  have hJh : J < h := by rw [hJ]; split_ifs <;> omega
  unfold stepT
  rw [colPass_eq, if_pos ⟨hIw, hJh⟩, hI, sA w i vi hi, sB w i vi hi, sP w i vi hi, rowPass_eq, rowPass_eq,
    if_pos ⟨by omega, hJh⟩, if_pos ⟨by omega, hJh⟩, hJ, sA h j vj hj, sB h j vj hj, sP h j vj hj]
  simp only [butterfly_real]
  linear_combination (m (2 * i) (2 * j) + sgn (!vj) * m (2 * i) (2 * j + 1) + sgn (!vi) * m (2 * i + 1) (2 * j)
        + sgn (!vi) * sgn (!vj) * m (2 * i + 1) (2 * j + 1)) * hrt

/-- C57: in exact arithmetic every detail coefficient of every level is the signed sum of the four blocks of half the
size that make up its block of the image: left minus right in the upper right part, top minus bottom in the lower left part, both
in the lower right part, always divided by `2^(k+1)`. Together with `lowLow_is_block_sum` this determines the whole transform. -/
theorem wavelet_details (m c : Mat ℝ) (L : Nat) (hr : 0 < m.rows) (hc : 0 < m.cols) (h : dwt2d m L false = .ok c) (k : Nat)
    (hk : k < L) (i j : Nat) (hi : i < m.rows / 2 ^ (k + 1)) (hj : j < m.cols / 2 ^ (k + 1)) :
    c.get i (m.cols / 2 ^ (k + 1) + j) =
      (squareSum m (2 ^ k) (2 * i) (2 * j) - squareSum m (2 ^ k) (2 * i) (2 * j + 1)
        + squareSum m (2 ^ k) (2 * i + 1) (2 * j) - squareSum m (2 ^ k) (2 * i + 1) (2 * j + 1)) / 2 ^ (k + 1) ∧
    c.get (m.rows / 2 ^ (k + 1) + i) j =
      (squareSum m (2 ^ k) (2 * i) (2 * j) + squareSum m (2 ^ k) (2 * i) (2 * j + 1)
        - squareSum m (2 ^ k) (2 * i + 1) (2 * j) - squareSum m (2 ^ k) (2 * i + 1) (2 * j + 1)) / 2 ^ (k + 1) ∧
    c.get (m.rows / 2 ^ (k + 1) + i) (m.cols / 2 ^ (k + 1) + j) =
      (squareSum m (2 ^ k) (2 * i) (2 * j) - squareSum m (2 ^ k) (2 * i) (2 * j + 1)
        - squareSum m (2 ^ k) (2 * i + 1) (2 * j) + squareSum m (2 ^ k) (2 * i + 1) (2 * j + 1)) / 2 ^ (k + 1) := by
  obtain ⟨h1, hL, hr', hc'⟩ := dwt2d_forward_dvd m c L hr hc h
  rw [dwt2d_forward m L h1 hL hr' hc'] at h
  cases h
  have e1 := pow_div_even hr' hk
  have e2 := pow_div_even hc' hk
  have hi2 : i < m.rows / 2 ^ k / 2 := by rw [← div_pow_succ]; exact hi
  have hj2 : j < m.cols / 2 ^ k / 2 := by rw [← div_pow_succ]; exact hj
  have key : ∀ vi vj : Bool, (vi || vj) = true →
      fwdN m.rows m.cols L m.get (if vi then m.rows / 2 ^ (k + 1) + i else i) (if vj then m.cols / 2 ^ (k + 1) + j else j) =
      (squareSum m (2 ^ k) (2 * i) (2 * j) + sgn (!vj) * squareSum m (2 ^ k) (2 * i) (2 * j + 1)
        + sgn (!vi) * squareSum m (2 ^ k) (2 * i + 1) (2 * j)
        + sgn (!vi) * sgn (!vj) * squareSum m (2 ^ k) (2 * i + 1) (2 * j + 1)) / 2 ^ (k + 1) := by
    intro vi vj hv
    obtain ⟨d, rfl⟩ : ∃ d, L = k + 1 + d := ⟨L - (k + 1), by omega⟩
    rw [fwdN_stable]
    · rw [div_pow_succ, div_pow_succ, fwdN, stepT_bands _ _ e1 e2 _ _ _ hi2 hj2]
      have hb : ∀ p q, p < m.rows / 2 ^ k → q < m.cols / 2 ^ k →
          fwdN m.rows m.cols k m.get p q = squareSum m (2 ^ k) p q / 2 ^ k :=
        fun p q hp hq => fwdN_lowLow m.rows m.cols _ hr' hc' m.get k (by omega) p hp q hq
      rw [hb _ _ (by omega) (by omega), hb _ _ (by omega) (by omega), hb _ _ (by omega) (by omega),
        hb _ _ (by omega) (by omega), pow_succ]
      field_simp
    · rintro ⟨a, b⟩
      cases vi <;> cases vj <;> simp at hv a b
  have k1 := key false true rfl
  have k2 := key true false rfl
  have k3 := key true true rfl
  simp only [if_true, Bool.false_eq_true, if_false, sgn, Bool.not_true, Bool.not_false] at k1 k2 k3
  refine ⟨?_, ?_, ?_⟩
  · show fwdN m.rows m.cols L m.get i (m.cols / 2 ^ (k + 1) + j) = _
    rw [k1]; ring
  · show fwdN m.rows m.cols L m.get (m.rows / 2 ^ (k + 1) + i) j = _
    rw [k2]; ring
  · show fwdN m.rows m.cols L m.get (m.rows / 2 ^ (k + 1) + i) (m.cols / 2 ^ (k + 1) + j) = _
    rw [k3]; ring

/-- C57 on one level: the classical four formulas on a 2 x 2 image. -/
example (a b c d : ℝ) : ∃ t, dwt2d ⟨2, 2, fun i j => if i = 0 then (if j = 0 then a else b) else (if j = 0 then c else d)⟩ 1 false
      = .ok t ∧ t.get 0 0 = (a + b + c + d) / 2 ∧ t.get 0 1 = (a - b + c - d) / 2 ∧
      t.get 1 0 = (a + b - c - d) / 2 ∧ t.get 1 1 = (a - b - c + d) / 2 := by
  set m : Mat ℝ := ⟨2, 2, fun i j => if i = 0 then (if j = 0 then a else b) else (if j = 0 then c else d)⟩ with hm
  obtain ⟨t, ht⟩ := (dwt_succeeds_iff m 1 (by simp [hm]) (by simp [hm])).mpr ⟨le_rfl, by norm_num, by simp [hm], by simp [hm]⟩
  have h0 := lowLow_is_block_sum m t 1 (by simp [hm]) (by simp [hm]) ht 0 0 (by simp [hm]) (by simp [hm])
  have h1 := wavelet_details m t 1 (by simp [hm]) (by simp [hm]) ht 0 (by omega) 0 0 (by simp [hm]) (by simp [hm])
  simp [hm, squareSum, sum_range_succ] at h0 h1
  exact ⟨t, ht, by rw [h0]; ring, by rw [h1.1], by rw [h1.2.1], by rw [h1.2.2]⟩

end Sia
