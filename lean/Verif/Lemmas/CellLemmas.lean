import Verif.Model.Steganography
import Verif.Lemmas.FloatInstances

/-! One coefficient: writing and reading a bit, in any lawful arithmetic. -/
namespace Sia
open FloatOps LawfulFloat

theorem omega_le : omega ≤ 1 / 2 ^ 200 := le_refl _

/-- `roundAway` is a nearest integer. -/
theorem roundAway_err (x : ℝ) : |(roundAway x : ℝ) - x| ≤ 1 / 2 := by
  unfold roundAway
  split_ifs with h
  · have h1 := Int.floor_le (x + 1 / 2)
    have h2 := Int.lt_floor_add_one (x + 1 / 2)
    rw [abs_le]; constructor <;> linarith
  · have h1 := Int.le_ceil (x - 1 / 2)
    have h2 := Int.ceil_lt_add_one (x - 1 / 2)
    rw [abs_le]; constructor <;> linarith

/-- The nearest integer is unique off the half-integers. -/
theorem roundAway_eq (x : ℝ) (k : ℤ) (h : |x - k| < 1 / 2) : roundAway x = k := by
  have h1 := roundAway_err x
  have h2 : |(roundAway x : ℝ) - k| < 1 := by
    calc |(roundAway x : ℝ) - k| = |((roundAway x : ℝ) - x) + (x - k)| := by ring_nf
      _ ≤ _ := abs_add_le _ _
      _ < 1 := by linarith
  have h3 : |roundAway x - k| < 1 := by exact_mod_cast h2
  rw [Int.abs_lt_one_iff] at h3
  omega

/-- Signed quarter written for a bit. -/
noncomputable def quarter (b : Bool) : ℝ := if b then 1 / 4 else -1 / 4

section
variable {F : Type} [FloatOps F] [LawfulFloat F]

/-- Depths for which the error analysis is carried out. -/
structure GoodDepth (depth : F) : Prop where
  fin : LawfulFloat.fin depth
  lower : 1 / 2 ^ 100 ≤ val depth
  upper : val depth ≤ 2 ^ 100

theorem GoodDepth.pos {depth : F} (h : GoodDepth depth) : 0 < val depth :=
  lt_of_lt_of_le (by positivity) h.lower

theorem GoodDepth.omega_le {depth : F} (h : GoodDepth depth) : omega ≤ val depth * (1 / 2 ^ 100) := by
  have := h.lower
  unfold omega
  calc (1 : ℝ) / 2 ^ 200 = 1 / 2 ^ 100 * (1 / 2 ^ 100) := by norm_num
    _ ≤ _ := mul_le_mul_of_nonneg_right this (by positivity)

theorem u_mul_le (K : ℝ) (_h0 : 0 ≤ K) (hK : K ≤ 2 ^ 50) : u F * K ≤ 1 / 8 := by
  have h1 := u_le (F := F)
  have h2 := u_nonneg (F := F)
  calc u F * K ≤ 1 / 2 ^ 53 * 2 ^ 50 := mul_le_mul h1 hK (by assumption) (by positivity)
    _ = 1 / 8 := by norm_num

theorem lit_quarter (b : Bool) : fin (if b then (lit (1 / 4) : F) else lit (-1 / 4)) ∧
    val (if b then (lit (1 / 4) : F) else lit (-1 / 4)) = quarter b := by
  have h1 := lit_dyadic (F := F) 1 2 (by norm_num) (by norm_num)
  have h2 := lit_dyadic (F := F) (-1) 2 (by norm_num) (by norm_num)
  norm_num at h1 h2
  cases b <;> simp only [quarter]
  · norm_num; exact h2
  · norm_num; exact h1

/-- The written value is `depth * (k ± 1/4)` up to rounding errors, `k` being the rounded quotient. -/
theorem writeCell_round (depth c : F) (hd : GoodDepth depth) (b : Bool) (hc : fin c) (K : ℝ) (hK0 : 0 ≤ K)
    (hK : K ≤ 2 ^ 48) (hcK : |val c| ≤ K * val depth) (k : ℤ) (hk : k = roundAway (val (div c depth))) :
    |(k : ℝ) - val c / val depth| ≤ 1 / 2 + u F * (K + 1) ∧ |(k : ℝ)| ≤ K + 1 ∧
      fin (writeCell depth b c) ∧
      |val (writeCell depth b c) - val depth * (k + quarter b)| ≤ u F * (2 * K + 6) * val depth := by
  have hD := hd.pos
  have hu := u_nonneg (F := F)
  have hu1 := u_le (F := F)
  have hω := omega_pos
  have hωD := hd.omega_le
  have hω1 : omega ≤ 1 / 2 ^ 200 := omega_le
  have hx : |val c / val depth| ≤ K := by rw [abs_div, abs_of_pos hD, div_le_iff₀ hD]; exact hcK
  have hKu := u_mul_le (F := F) (K + 1) (by linarith) (by norm_num at hK ⊢; linarith)
  obtain ⟨f1, e1⟩ := div_spec c depth hc hd.fin hD.ne' (le_trans hx (le_trans hK (by norm_num)))
  have e1' : |val (div c depth) - val c / val depth| ≤ u F * (K + 1) := by
    refine le_trans e1 (mul_le_mul_of_nonneg_left ?_ hu)
    have : (1 : ℝ) / 2 ^ 200 ≤ 1 := by norm_num
    linarith
  obtain ⟨f2, e2⟩ := round_spec (div c depth) f1
  rw [← hk] at e2
  have hkerr := roundAway_err (val (div c depth))
  rw [← hk] at hkerr
  have hk1 : |(k : ℝ) - val c / val depth| ≤ 1 / 2 + u F * (K + 1) := by
    calc |(k : ℝ) - val c / val depth| = |((k : ℝ) - val (div c depth)) + (val (div c depth) - val c / val depth)| := by
          ring_nf
      _ ≤ _ := abs_add_le _ _
      _ ≤ _ := by linarith
  have hk2 : |(k : ℝ)| ≤ K + 1 := by
    calc |(k : ℝ)| = |((k : ℝ) - val c / val depth) + val c / val depth| := by ring_nf
      _ ≤ _ := abs_add_le _ _
      _ ≤ _ := by linarith
  refine ⟨hk1, hk2, ?_⟩
  obtain ⟨f3, e3⟩ := lit_quarter (F := F) b
  have hq : |quarter b| ≤ 1 / 4 := by unfold quarter; split_ifs <;> norm_num [abs_le]
  have hs : |(k : ℝ) + quarter b| ≤ K + 5 / 4 := le_trans (abs_add_le _ _) (by linarith)
  obtain ⟨f4, e4⟩ := add_spec (FloatOps.round (div c depth)) (if b then (lit (1 / 4) : F) else lit (-1 / 4)) f2 f3 (by
    rw [e2, e3]; norm_num at hK ⊢; linarith)
  rw [e2, e3] at e4
  have e4' : |val (add (FloatOps.round (div c depth)) (if b then (lit (1 / 4) : F) else lit (-1 / 4)))
      - (k + quarter b)| ≤ u F * (K + 2) := by
    refine le_trans e4 (mul_le_mul_of_nonneg_left ?_ hu)
    have : (1 : ℝ) / 2 ^ 200 ≤ 1 / 2 := by norm_num
    linarith
  set s := val (add (FloatOps.round (div c depth)) (if b then (lit (1 / 4) : F) else lit (-1 / 4))) with hsdef
  have hs2 : |s| ≤ K + 2 := by
    calc |s| = |(s - (k + quarter b)) + (k + quarter b)| := by ring_nf
      _ ≤ _ := abs_add_le _ _
      _ ≤ _ := by nlinarith
  have hDs : |val depth * s| ≤ val depth * (K + 2) := by
    rw [abs_mul, abs_of_pos hD]; exact mul_le_mul_of_nonneg_left hs2 hD.le
  obtain ⟨f5, e5⟩ := mul_spec depth _ hd.fin f4 (by
    rw [← hsdef]
    refine le_trans hDs ?_
    calc val depth * (K + 2) ≤ 2 ^ 100 * (2 ^ 48 + 2) := mul_le_mul hd.upper (by linarith) (by linarith) (by positivity)
      _ ≤ 2 ^ 200 := by norm_num)
  rw [← hsdef] at e5
  refine ⟨f5, ?_⟩
  show |val (mul depth (add (FloatOps.round (div c depth)) (if b then (lit (1 / 4) : F) else lit (-1 / 4))))
    - val depth * (k + quarter b)| ≤ _
  have e6 : |val depth * s - val depth * (k + quarter b)| ≤ val depth * (u F * (K + 2)) := by
    rw [← mul_sub, abs_mul, abs_of_pos hD]; exact mul_le_mul_of_nonneg_left e4' hD.le
  have e5' : |val (mul depth (add (FloatOps.round (div c depth)) (if b then (lit (1 / 4) : F) else lit (-1 / 4))))
      - val depth * s| ≤ u F * (val depth * (K + 4)) := by
    refine le_trans e5 (mul_le_mul_of_nonneg_left ?_ hu)
    have : val depth * (1 / 2 ^ 100) ≤ val depth * 2 := mul_le_mul_of_nonneg_left (by norm_num) hD.le
    nlinarith
  calc _ = |(val (mul depth (add (FloatOps.round (div c depth)) (if b then (lit (1 / 4) : F) else lit (-1 / 4))))
      - val depth * s) + (val depth * s - val depth * (k + quarter b))| := by ring_nf
    _ ≤ _ := abs_add_le _ _
    _ ≤ u F * (val depth * (K + 4)) + val depth * (u F * (K + 2)) := by linarith
    _ = u F * (2 * K + 6) * val depth := by ring

/-- The written value is `depth * (k ± 1/4)` up to rounding errors, `k` a nearest integer of the quotient. -/
theorem writeCell_spec (depth c : F) (hd : GoodDepth depth) (b : Bool) (hc : fin c) (K : ℝ) (hK0 : 0 ≤ K)
    (hK : K ≤ 2 ^ 48) (hcK : |val c| ≤ K * val depth) :
    ∃ k : ℤ, |(k : ℝ) - val c / val depth| ≤ 1 / 2 + u F * (K + 1) ∧ |(k : ℝ)| ≤ K + 1 ∧
      fin (writeCell depth b c) ∧
      |val (writeCell depth b c) - val depth * (k + quarter b)| ≤ u F * (2 * K + 6) * val depth :=
  ⟨_, writeCell_round depth c hd b hc K hK0 hK hcK _ rfl⟩

/-- Writing moves a coefficient by at most three quarters of the depth (plus rounding). -/
theorem writeCell_dist (depth c : F) (hd : GoodDepth depth) (b : Bool) (hc : fin c) (K : ℝ) (hK0 : 0 ≤ K)
    (hK : K ≤ 2 ^ 48) (hcK : |val c| ≤ K * val depth) :
    |val (writeCell depth b c) - val c| ≤ (3 / 4 + u F * (3 * K + 7)) * val depth := by
  obtain ⟨k, h1, _, _, h3⟩ := writeCell_spec depth c hd b hc K hK0 hK hcK
  have hD := hd.pos
  have hq : |quarter b| ≤ 1 / 4 := by unfold quarter; split_ifs <;> norm_num [abs_le]
  have h4 : |val depth * (k + quarter b) - val c| ≤ (3 / 4 + u F * (K + 1)) * val depth := by
    have : val depth * (k + quarter b) - val c = val depth * ((k - val c / val depth) + quarter b) := by
      field_simp; ring
    rw [this, abs_mul, abs_of_pos hD, mul_comm]
    apply mul_le_mul_of_nonneg_right _ hD.le
    exact le_trans (abs_add_le _ _) (by linarith)
  calc _ = |(val (writeCell depth b c) - val depth * (k + quarter b)) + (val depth * (k + quarter b) - val c)| := by
        ring_nf
    _ ≤ _ := abs_add_le _ _
    _ ≤ u F * (2 * K + 6) * val depth + (3 / 4 + u F * (K + 1)) * val depth := by linarith
    _ = _ := by ring

/-- A coefficient within a quarter depth (minus rounding slack) of `depth * (k ± 1/4)` is read as that bit. -/
theorem readCell_spec (depth c : F) (hd : GoodDepth depth) (b : Bool) (hc : fin c) (K : ℝ) (hK0 : 0 ≤ K)
    (hK : K ≤ 2 ^ 48) (hcK : |val c| ≤ K * val depth) (k : ℤ)
    (hclose : |val c - val depth * (k + quarter b)| < (1 / 4 - u F * (3 * K + 5)) * val depth) :
    readCell depth c = b := by
  have hD := hd.pos
  have hu := u_nonneg (F := F)
  have hu1 := u_le (F := F)
  have hω := omega_pos
  have hωD := hd.omega_le
  have hω1 : omega ≤ 1 / 2 ^ 200 := omega_le
  have hx : |val c / val depth| ≤ K := by rw [abs_div, abs_of_pos hD, div_le_iff₀ hD]; exact hcK
  have hKu := u_mul_le (F := F) (3 * K + 5) (by linarith) (by norm_num at hK ⊢; linarith)
  obtain ⟨f1, e1⟩ := div_spec c depth hc hd.fin hD.ne' (le_trans hx (le_trans hK (by norm_num)))
  have e1' : |val (div c depth) - val c / val depth| ≤ u F * (K + 1) := by
    refine le_trans e1 (mul_le_mul_of_nonneg_left ?_ hu)
    have : (1 : ℝ) / 2 ^ 200 ≤ 1 := by norm_num
    linarith
  have hq : |quarter b| ≤ 1 / 4 := by unfold quarter; split_ifs <;> norm_num [abs_le]
  -- the quotient is close to k + quarter
  have hclose' : |val c / val depth - (k + quarter b)| < 1 / 4 - u F * (3 * K + 5) := by
    have : val c / val depth - (k + quarter b) = (val c - val depth * (k + quarter b)) / val depth := by
      field_simp
    rw [this, abs_div, abs_of_pos hD, div_lt_iff₀ hD]; exact hclose
  have hround : roundAway (val (div c depth)) = k := by
    apply roundAway_eq
    calc |val (div c depth) - k| = |(val (div c depth) - val c / val depth) +
          ((val c / val depth - (k + quarter b)) + quarter b)| := by ring_nf
      _ ≤ |val (div c depth) - val c / val depth| + (|val c / val depth - (k + quarter b)| + |quarter b|) :=
          le_trans (abs_add_le _ _) (by linarith [abs_add_le (val c / val depth - (k + quarter b)) (quarter b)])
      _ < 1 / 2 := by nlinarith
  obtain ⟨f2, e2⟩ := round_spec (div c depth) f1
  rw [hround] at e2
  have hkK : |(k : ℝ)| ≤ K + 1 := by
    calc |(k : ℝ)| = |val c / val depth - ((val c / val depth - (k + quarter b)) + quarter b)| := by ring_nf
      _ ≤ |val c / val depth| + |(val c / val depth - (k + quarter b)) + quarter b| := abs_sub _ _
      _ ≤ K + (|val c / val depth - (k + quarter b)| + |quarter b|) := by linarith [abs_add_le (val c / val depth - (k + quarter b)) (quarter b)]
      _ ≤ K + 1 := by nlinarith
  have hDk : |val depth * (k : ℝ)| ≤ val depth * (K + 1) := by
    rw [abs_mul, abs_of_pos hD]; exact mul_le_mul_of_nonneg_left hkK hD.le
  obtain ⟨f3, e3⟩ := mul_spec depth (FloatOps.round (div c depth)) hd.fin f2 (by
    rw [e2]
    refine le_trans hDk ?_
    calc val depth * (K + 1) ≤ 2 ^ 100 * (2 ^ 48 + 1) := mul_le_mul hd.upper (by linarith) (by linarith) (by positivity)
      _ ≤ 2 ^ 200 := by norm_num)
  rw [e2] at e3
  have e3' : |val (mul depth (FloatOps.round (div c depth))) - val depth * k| ≤ u F * ((K + 2) * val depth) := by
    refine le_trans e3 (mul_le_mul_of_nonneg_left ?_ hu)
    have : val depth * (1 / 2 ^ 100) ≤ val depth * 1 := mul_le_mul_of_nonneg_left (by norm_num) hD.le
    nlinarith
  set m := val (mul depth (FloatOps.round (div c depth))) with hm
  have ht : |val c - m| ≤ 2 * val depth := by
    have h1 : |val c - m| ≤ |val c - val depth * (k + quarter b)| + |val depth * quarter b| + |m - val depth * k| := by
      have : val c - m = (val c - val depth * (k + quarter b)) + val depth * quarter b - (m - val depth * k) := by ring
      rw [this]
      exact le_trans (abs_sub _ _) (by linarith [abs_add_le (val c - val depth * (k + quarter b)) (val depth * quarter b)])
    have h2 : |val depth * quarter b| ≤ val depth * (1 / 4) := by
      rw [abs_mul, abs_of_pos hD]; exact mul_le_mul_of_nonneg_left hq hD.le
    have h3 : u F * ((K + 2) * val depth) ≤ 1 / 8 * val depth := by
      have : u F * (K + 2) ≤ 1 / 8 := by nlinarith
      nlinarith
    have h4 : (1 / 4 - u F * (3 * K + 5)) * val depth ≤ 1 / 4 * val depth := by
      apply mul_le_mul_of_nonneg_right _ hD.le; nlinarith
    linarith
  obtain ⟨f4, e4⟩ := sub_spec c (mul depth (FloatOps.round (div c depth))) hc f3 (by
    rw [← hm]
    refine le_trans ht ?_
    have := hd.upper
    calc 2 * val depth ≤ 2 * 2 ^ 100 := by linarith
      _ ≤ 2 ^ 200 := by norm_num)
  rw [← hm] at e4
  obtain ⟨f5, e5⟩ := ofInt_spec (F := F) 0 (by norm_num)
  have hge := ge_spec (sub c (mul depth (FloatOps.round (div c depth)))) (ofInt 0 : F) f4 f5
  rw [e5] at hge
  unfold readCell
  obtain ⟨c1, c2⟩ := abs_lt.mp hclose
  obtain ⟨m1, m2⟩ := abs_le.mp e3'
  obtain ⟨s1, s2⟩ := abs_le.mp e4
  have hωu : u F * omega ≤ u F * val depth := by
    apply mul_le_mul_of_nonneg_left _ hu
    have : val depth * (1 / 2 ^ 100) ≤ val depth * 1 := mul_le_mul_of_nonneg_left (by norm_num) hD.le
    linarith
  cases b with
  | true =>
    rw [hge]
    simp only [quarter, if_true] at c1 c2
    push_cast
    have ht1 : u F * ((2 * K + 3) * val depth) ≤ val c - m := by linarith
    have hpos : 0 ≤ val c - m := le_trans (by positivity) ht1
    rw [abs_of_nonneg hpos] at s1 s2
    have hu2 : u F ≤ 1 / 2 := le_trans hu1 (by norm_num)
    have hpr : u F * (val c - m) ≤ 1 / 2 * (val c - m) := mul_le_mul_of_nonneg_right hu2 hpos
    have h0 : 0 ≤ u F * val depth := mul_nonneg hu hD.le
    have h3 : 3 * (u F * val depth) ≤ u F * ((2 * K + 3) * val depth) := by
      have : 0 ≤ u F * val depth * K := mul_nonneg h0 hK0
      linarith
    rw [mul_add] at s1 s2
    linarith
  | false =>
    rw [← Bool.not_eq_true, hge]
    simp only [quarter, Bool.false_eq_true, if_false] at c1 c2
    push_cast
    have ht1 : val c - m < -(u F * ((2 * K + 3) * val depth)) := by linarith
    have hneg : val c - m < 0 := lt_of_lt_of_le ht1 (by have : 0 ≤ u F * ((2 * K + 3) * val depth) := by positivity
                                                        linarith)
    rw [abs_of_neg hneg] at s1 s2
    have hu2 : u F ≤ 1 / 2 := le_trans hu1 (by norm_num)
    have hpr : u F * (-(val c - m)) ≤ 1 / 2 * (-(val c - m)) := mul_le_mul_of_nonneg_right hu2 (by linarith)
    have h0 : 0 ≤ u F * val depth := mul_nonneg hu hD.le
    have h3 : 3 * (u F * val depth) ≤ u F * ((2 * K + 3) * val depth) := by
      have : 0 ≤ u F * val depth * K := mul_nonneg h0 hK0
      linarith
    rw [mul_add] at s1 s2
    intro h
    linarith

/-- Reading back what was written, with additive noise on the coefficient. -/
theorem readCell_writeCell (depth c c' : F) (hd : GoodDepth depth) (b : Bool) (hc : fin c) (hc' : fin c') (K : ℝ)
    (hK0 : 0 ≤ K) (hK : K ≤ 2 ^ 46) (hcK : |val c| ≤ K * val depth)
    (hnoise : |val c' - val (writeCell depth b c)| < (1 / 4 - u F * (5 * K + 20)) * val depth) :
    readCell depth c' = b := by
  have hD := hd.pos
  have hu := u_nonneg (F := F)
  have hKu := u_mul_le (F := F) (5 * K + 20) (by linarith) (by norm_num at hK ⊢; linarith)
  obtain ⟨k, h1, h2, f3, h3⟩ := writeCell_spec depth c hd b hc K hK0 (le_trans hK (by norm_num)) hcK
  have hq : |quarter b| ≤ 1 / 4 := by unfold quarter; split_ifs <;> norm_num [abs_le]
  have hclose : |val c' - val depth * (k + quarter b)| < (1 / 4 - u F * (3 * (K + 3) + 5)) * val depth := by
    have : |val c' - val depth * (k + quarter b)| ≤ |val c' - val (writeCell depth b c)| +
        |val (writeCell depth b c) - val depth * (k + quarter b)| := by
      have := abs_add_le (val c' - val (writeCell depth b c)) (val (writeCell depth b c) - val depth * (k + quarter b))
      simpa using this
    have : (1 / 4 - u F * (5 * K + 20)) * val depth + u F * (2 * K + 6) * val depth =
      (1 / 4 - u F * (3 * (K + 3) + 5)) * val depth := by ring
    linarith
  refine readCell_spec depth c' hd b hc' (K + 3) (by linarith) (by norm_num at hK ⊢; linarith) ?_ k hclose
  have h5 : |val depth * (k + quarter b)| ≤ val depth * (K + 5 / 4) := by
    rw [abs_mul, abs_of_pos hD]
    apply mul_le_mul_of_nonneg_left _ hD.le
    exact le_trans (abs_add_le _ _) (by linarith)
  have h6 : |val c'| ≤ |val c' - val depth * (k + quarter b)| + |val depth * (k + quarter b)| := by
    have := abs_add_le (val c' - val depth * (k + quarter b)) (val depth * (k + quarter b)); simpa using this
  have h7 : (1 / 4 - u F * (3 * (K + 3) + 5)) * val depth ≤ 1 / 4 * val depth := by
    apply mul_le_mul_of_nonneg_right _ hD.le; nlinarith
  nlinarith

end

/-! ### Exact arithmetic, no bound on the coefficients -/

theorem writeCell_real (d c : ℝ) (b : Bool) : writeCell d b c = d * (roundAway (c / d) + quarter b) := by
  show d * ((roundAway (c / d) : ℝ) + (if b then ((1 / 4 : ℚ) : ℝ) else ((-1 / 4 : ℚ) : ℝ))) = _
  unfold quarter
  cases b <;> norm_num

theorem readCell_real (d c : ℝ) : readCell d c = decide (d * roundAway (c / d) ≤ c) := by
  show (by classical exact decide (((0 : ℤ) : ℝ) ≤ c - d * (roundAway (c / d) : ℝ))) = _
  simp

end Sia
