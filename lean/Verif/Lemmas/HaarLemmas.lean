import Verif.Model.Haar
import Verif.Model.FloatReal
import Verif.Lemmas.Lists
import Mathlib.Algebra.BigOperators.Intervals
import Mathlib.Tactic.Ring
import Mathlib.Tactic.Linarith
import Mathlib.Tactic.FieldSimp
import Mathlib.Tactic.LinearCombination

/-! The 2-D Haar transform as a composition of passes; exact properties over `ℝ`. -/
namespace Sia
open FloatOps

/-! ### Index form of the one-level transform -/

/-- First and second input position of output `i`, and whether the two are added. -/
def srcA (n : Nat) (b : Bool) (i : Nat) : Nat :=
  if b then i / 2 else if i < n / 2 then 2 * i else 2 * (i - n / 2)
def srcB (n : Nat) (b : Bool) (i : Nat) : Nat :=
  if b then n / 2 + i / 2 else if i < n / 2 then 2 * i + 1 else 2 * (i - n / 2) + 1
def srcPlus (n : Nat) (b : Bool) (i : Nat) : Bool := if b then i % 2 = 0 else i < n / 2

section
variable {F : Type} [FloatOps F]

/-- The scaled butterfly. -/
def butterfly (plus : Bool) (x y : F) : F :=
  if plus then add (mul frac1Sqrt2 x) (mul frac1Sqrt2 y) else sub (mul frac1Sqrt2 x) (mul frac1Sqrt2 y)

theorem dwt1d_eq (n : Nat) (v : Nat → F) (b : Bool) (i : Nat) :
    dwt1d n v b i = butterfly (srcPlus n b i) (v (srcA n b i)) (v (srcB n b i)) := by
  unfold dwt1d butterfly srcPlus srcA srcB haarForward haarBackward
  cases b
  · by_cases h : i < n / 2 <;> simp [h]
  · by_cases h : i % 2 = 0 <;> simp [h]

theorem srcA_lt {n : Nat} (b : Bool) {i : Nat} (hn : n % 2 = 0) (hi : i < n) : srcA n b i < n := by
  unfold srcA; split_ifs <;> omega
theorem srcB_lt {n : Nat} (b : Bool) {i : Nat} (hn : n % 2 = 0) (hi : i < n) : srcB n b i < n := by
  unfold srcB; split_ifs <;> omega

theorem rowPass_eq (w h : Nat) (b : Bool) (m : Nat → Nat → F) (i j : Nat) : rowPass w h b m i j =
    if i < w ∧ j < h then butterfly (srcPlus h b j) (m i (srcA h b j)) (m i (srcB h b j)) else m i j := by
  unfold rowPass; rw [dwt1d_eq]

theorem colPass_eq (w h : Nat) (b : Bool) (m : Nat → Nat → F) (i j : Nat) : colPass w h b m i j =
    if i < w ∧ j < h then butterfly (srcPlus w b i) (m (srcA w b i) j) (m (srcB w b i) j) else m i j := by
  unfold colPass; rw [dwt1d_eq]

/-- One iteration of the transform. -/
def stepT (b : Bool) (w h : Nat) (m : Nat → Nat → F) : Nat → Nat → F := colPass w h b (rowPass w h b m)

/-- The first `k` forward iterations. -/
def fwdN (R C : Nat) : Nat → (Nat → Nat → F) → Nat → Nat → F
  | 0, m => m
  | k + 1, m => stepT false (R / 2 ^ k) (C / 2 ^ k) (fwdN R C k m)

/-- The last `k` backward iterations. -/
def bwdN (R C : Nat) : Nat → (Nat → Nat → F) → Nat → Nat → F
  | 0, m => m
  | k + 1, m => bwdN R C k (stepT true (R / 2 ^ k) (C / 2 ^ k) m)

theorem pow_div_even {R k L : Nat} (h : 2 ^ L ∣ R) (hk : k < L) : R / 2 ^ k % 2 = 0 := by
  obtain ⟨q, rfl⟩ := h
  obtain ⟨d, rfl⟩ : ∃ d, L = k + 1 + d := ⟨L - (k + 1), by omega⟩
  rw [show 2 ^ (k + 1 + d) * q = 2 ^ k * (2 * (2 ^ d * q)) by rw [pow_add, pow_add]; ring,
    Nat.mul_div_cancel_left _ (by positivity)]
  omega

theorem pow_div_dvd {R k L : Nat} (h : 2 ^ L ∣ R) (hk : k ≤ L) : R / 2 ^ k * 2 ^ k = R :=
  Nat.div_mul_cancel (dvd_trans (pow_dvd_pow 2 hk) h)

theorem div_pow_succ (R k : Nat) : R / 2 ^ (k + 1) = R / 2 ^ k / 2 := by
  rw [pow_succ, Nat.div_div_eq_div_mul]

theorem dwtIteration_ok (b : Bool) (m : Mat F) (k L : Nat) (hk : k < L) (hL : L ≤ 31) (hr : 2 ^ L ∣ m.rows)
    (hc : 2 ^ L ∣ m.cols) :
    dwtIteration b m k = .ok ⟨m.rows, m.cols, stepT b (m.rows / 2 ^ k) (m.cols / 2 ^ k) m.get⟩ := by
  unfold dwtIteration
  rw [if_neg (by omega)]
  have h1 := pow_div_even hr hk
  have h2 := pow_div_even hc hk
  dsimp only
  rw [if_neg (by omega)]
  rfl

theorem fwd_foldlM (m : Mat F) (L : Nat) (hL : L ≤ 31) (hr : 2 ^ L ∣ m.rows) (hc : 2 ^ L ∣ m.cols) : ∀ k ≤ L,
    (List.range k).foldlM (dwtIteration false) m = .ok ⟨m.rows, m.cols, fwdN m.rows m.cols k m.get⟩ := by
  intro k
  induction k with
  | zero => intro _; rfl
  | succ k ih =>
    intro hk
    rw [List.range_succ, List.foldlM_append, ih (by omega)]
    simp only [List.foldlM_cons, List.foldlM_nil, bind, Except.bind, pure, Except.pure]
    rw [dwtIteration_ok false ⟨m.rows, m.cols, fwdN m.rows m.cols k m.get⟩ k L (by omega) hL hr hc]
    rfl

theorem bwd_foldlM (R C L : Nat) (hL : L ≤ 31) (hr : 2 ^ L ∣ R) (hc : 2 ^ L ∣ C) : ∀ k ≤ L, ∀ g : Nat → Nat → F,
    (List.range k).reverse.foldlM (dwtIteration true) ⟨R, C, g⟩ = .ok ⟨R, C, bwdN R C k g⟩ := by
  intro k
  induction k with
  | zero => intro _ g; rfl
  | succ k ih =>
    intro hk g
    rw [List.range_succ, List.reverse_append]
    simp only [List.reverse_cons, List.reverse_nil, List.nil_append, List.cons_append, List.foldlM_cons, bind, Except.bind]
    rw [dwtIteration_ok true ⟨R, C, g⟩ k L (by omega) hL hr hc]
    dsimp only
    rw [ih (by omega)]
    rfl

theorem dwt2d_forward (m : Mat F) (L : Nat) (h1 : 1 ≤ L) (hL : L ≤ 31) (hr : 2 ^ L ∣ m.rows) (hc : 2 ^ L ∣ m.cols) :
    dwt2d m L false = .ok ⟨m.rows, m.cols, fwdN m.rows m.cols L m.get⟩ := by
  unfold dwt2d
  rw [if_neg (by omega)]
  exact fwd_foldlM m L hL hr hc L le_rfl

theorem dwt2d_backward (m : Mat F) (L : Nat) (h1 : 1 ≤ L) (hL : L ≤ 31) (hr : 2 ^ L ∣ m.rows) (hc : 2 ^ L ∣ m.cols) :
    dwt2d m L true = .ok ⟨m.rows, m.cols, bwdN m.rows m.cols L m.get⟩ := by
  unfold dwt2d
  rw [if_neg (by omega)]
  exact bwd_foldlM m.rows m.cols L hL hr hc L le_rfl m.get

theorem dwtIteration_dims (b : Bool) (m m' : Mat F) (k : Nat) (h : dwtIteration b m k = .ok m') :
    m'.rows = m.rows ∧ m'.cols = m.cols ∧ k < 31 ∧
    ¬ ((0 < m.rows / 2 ^ k ∧ m.cols / 2 ^ k % 2 ≠ 0) ∨ (0 < m.cols / 2 ^ k ∧ m.rows / 2 ^ k % 2 ≠ 0)) := by
  unfold dwtIteration at h
  dsimp only at h
  split_ifs at h with h1 h2
  cases h
  exact ⟨rfl, rfl, by omega, h2⟩

/-- The forward transform of a non-empty matrix succeeds only if both dimensions are divisible by `2^L`. -/
theorem dwt2d_forward_dvd (m m' : Mat F) (L : Nat) (hr : 0 < m.rows) (hc : 0 < m.cols) (h : dwt2d m L false = .ok m') :
    1 ≤ L ∧ L ≤ 31 ∧ 2 ^ L ∣ m.rows ∧ 2 ^ L ∣ m.cols := by
  unfold dwt2d at h
  split_ifs at h with h0
  · rename_i hb; simp at hb
  rename_i hb
  have key : ∀ k m', (List.range k).foldlM (dwtIteration false) m = .ok m' →
      m'.rows = m.rows ∧ m'.cols = m.cols ∧ k ≤ 31 ∧ 2 ^ k ∣ m.rows ∧ 2 ^ k ∣ m.cols := by
    intro k
    induction k with
    | zero => intro m' h; cases h; simp
    | succ k ih =>
      intro m' h
      rw [List.range_succ, List.foldlM_append] at h
      cases hm : (List.range k).foldlM (dwtIteration false) m with
      | error e => rw [hm] at h; simp [bind, Except.bind] at h
      | ok m1 =>
        rw [hm] at h
        obtain ⟨e1, e2, e3, e4, e5⟩ := ih m1 hm
        simp only [List.foldlM_cons, List.foldlM_nil, bind, Except.bind, pure, Except.pure] at h
        cases hi : dwtIteration false m1 k with
        | error e => rw [hi] at h; simp at h
        | ok m2 =>
          rw [hi] at h
          cases h
          obtain ⟨f1, f2, f3, f4⟩ := dwtIteration_dims false m1 _ k hi
          rw [e1, e2] at f4
          obtain ⟨a, ha⟩ := e4
          obtain ⟨c, hc'⟩ := e5
          have pa : 0 < a := by rcases Nat.eq_zero_or_pos a with rfl | h; · simp at ha; omega
                                · exact h
          have pc : 0 < c := by rcases Nat.eq_zero_or_pos c with rfl | h; · simp at hc'; omega
                                · exact h
          rw [ha, hc', Nat.mul_div_cancel_left _ (by positivity), Nat.mul_div_cancel_left _ (by positivity)] at f4
          refine ⟨by omega, by omega, by omega, ?_, ?_⟩
          · obtain ⟨a', rfl⟩ : ∃ a', a = 2 * a' := ⟨a / 2, by omega⟩
            exact ⟨a', by rw [ha, pow_succ]; ring⟩
          · obtain ⟨c', rfl⟩ : ∃ c', c = 2 * c' := ⟨c / 2, by omega⟩
            exact ⟨c', by rw [hc', pow_succ]; ring⟩
  obtain ⟨_, _, h3, h4, h5⟩ := key L m' h
  exact ⟨by omega, h3, h4, h5⟩

end

/-! ### Exact arithmetic -/

/-- `1/√2`. -/
noncomputable def rt : ℝ := 1 / Real.sqrt 2

theorem rt_sq : rt * rt = 1 / 2 := by
  unfold rt
  rw [div_mul_div_comm, Real.mul_self_sqrt (by norm_num)]; norm_num

theorem rt_pos : 0 < rt := by unfold rt; positivity

theorem rt_le : rt ≤ 3 / 4 := by
  have := rt_sq
  have := rt_pos
  nlinarith

/-- Sign of the second term. -/
def sgn (b : Bool) : ℝ := if b then 1 else -1

theorem butterfly_real (p : Bool) (x y : ℝ) : butterfly p x y = rt * x + sgn p * rt * y := by
  unfold butterfly sgn
  cases p
  · show rt * x - rt * y = _; norm_num; ring
  · show rt * x + rt * y = _; norm_num

/-- The one-level transform inverts itself. -/
theorem butterfly_bwd_fwd (n i : Nat) (hn : n % 2 = 0) (hi : i < n) (v : Nat → ℝ) :
    butterfly (srcPlus n true i)
      (butterfly (srcPlus n false (srcA n true i)) (v (srcA n false (srcA n true i))) (v (srcB n false (srcA n true i))))
      (butterfly (srcPlus n false (srcB n true i)) (v (srcA n false (srcB n true i))) (v (srcB n false (srcB n true i))))
      = v i := by
  have h1 : i / 2 < n / 2 := by omega
  have h2 : ¬ n / 2 + i / 2 < n / 2 := by omega
  have e : n / 2 + i / 2 - n / 2 = i / 2 := by omega
  have hrt := rt_sq
  simp only [srcA, srcB, srcPlus, if_true, Bool.false_eq_true, if_false, h1, h2, e, butterfly_real, sgn, decide_true,
    decide_false]
  by_cases hp : i % 2 = 0
  · simp only [hp, decide_true, if_true]
    rw [show 2 * (i / 2) = i by omega]
    linear_combination (2 * v i) * hrt
  · simp only [hp, decide_false, if_false, Bool.false_eq_true]
    rw [show 2 * (i / 2) + 1 = i by omega]
    linear_combination (2 * v i) * hrt

theorem butterfly_fwd_bwd (n i : Nat) (hn : n % 2 = 0) (hi : i < n) (v : Nat → ℝ) :
    butterfly (srcPlus n false i)
      (butterfly (srcPlus n true (srcA n false i)) (v (srcA n true (srcA n false i))) (v (srcB n true (srcA n false i))))
      (butterfly (srcPlus n true (srcB n false i)) (v (srcA n true (srcB n false i))) (v (srcB n true (srcB n false i))))
      = v i := by
  have hrt := rt_sq
  by_cases h : i < n / 2
  · have e1 : 2 * i / 2 = i := by omega
    have e2 : (2 * i + 1) / 2 = i := by omega
    have e3 : 2 * i % 2 = 0 := by omega
    have e4 : (2 * i + 1) % 2 = 1 := by omega
    simp only [srcA, srcB, srcPlus, if_true, Bool.false_eq_true, if_false, h, e1, e2, e3, e4, butterfly_real, sgn,
      decide_true, decide_false, one_ne_zero]
    linear_combination (2 * v i) * hrt
  · have e1 : 2 * (i - n / 2) / 2 = i - n / 2 := by omega
    have e2 : (2 * (i - n / 2) + 1) / 2 = i - n / 2 := by omega
    have e3 : 2 * (i - n / 2) % 2 = 0 := by omega
    have e4 : (2 * (i - n / 2) + 1) % 2 = 1 := by omega
    have e5 : n / 2 + (i - n / 2) = i := by omega
    simp only [srcA, srcB, srcPlus, if_true, Bool.false_eq_true, if_false, h, e1, e2, e3, e4, e5, butterfly_real, sgn,
      decide_true, decide_false, one_ne_zero]
    linear_combination (2 * v i) * hrt

theorem rowPass_inv (w h : Nat) (hh : h % 2 = 0) (b : Bool) (m : Nat → Nat → ℝ) :
    rowPass w h (!b) (rowPass w h b m) = m := by
  funext i j
  rw [rowPass_eq]
  by_cases hc : i < w ∧ j < h
  · rw [if_pos hc]
    have a1 := srcA_lt (!b) hh hc.2
    have a2 := srcB_lt (!b) hh hc.2
    rw [rowPass_eq, rowPass_eq, if_pos ⟨hc.1, a1⟩, if_pos ⟨hc.1, a2⟩]
    cases b
    · exact butterfly_bwd_fwd h j hh hc.2 (m i)
    · exact butterfly_fwd_bwd h j hh hc.2 (m i)
  · rw [if_neg hc, rowPass_eq, if_neg hc]

theorem colPass_inv (w h : Nat) (hw : w % 2 = 0) (b : Bool) (m : Nat → Nat → ℝ) :
    colPass w h (!b) (colPass w h b m) = m := by
  funext i j
  rw [colPass_eq]
  by_cases hc : i < w ∧ j < h
  · rw [if_pos hc]
    have a1 := srcA_lt (!b) hw hc.1
    have a2 := srcB_lt (!b) hw hc.1
    rw [colPass_eq, colPass_eq, if_pos ⟨a1, hc.2⟩, if_pos ⟨a2, hc.2⟩]
    cases b
    · exact butterfly_bwd_fwd w i hw hc.1 (fun i => m i j)
    · exact butterfly_fwd_bwd w i hw hc.1 (fun i => m i j)
  · rw [if_neg hc, colPass_eq, if_neg hc]

theorem row_col_comm (w h : Nat) (hw : w % 2 = 0) (hh : h % 2 = 0) (b b' : Bool) (m : Nat → Nat → ℝ) :
    rowPass w h b (colPass w h b' m) = colPass w h b' (rowPass w h b m) := by
  funext i j
  by_cases hc : i < w ∧ j < h
  · have a1 := srcA_lt b hh hc.2
    have a2 := srcB_lt b hh hc.2
    have a3 := srcA_lt b' hw hc.1
    have a4 := srcB_lt b' hw hc.1
    simp only [colPass_eq, rowPass_eq, hc.1, hc.2, a1, a2, a3, a4, and_self, if_true, butterfly_real]
    ring
  · rw [rowPass_eq, if_neg hc, colPass_eq, colPass_eq, if_neg hc, if_neg hc, rowPass_eq, if_neg hc]

theorem stepT_inv (w h : Nat) (hw : w % 2 = 0) (hh : h % 2 = 0) (b : Bool) (m : Nat → Nat → ℝ) :
    stepT (!b) w h (stepT b w h m) = m := by
  unfold stepT
  rw [row_col_comm w h hw hh, colPass_inv w h hw, rowPass_inv w h hh]

theorem bwdN_fwdN (R C L : Nat) (hr : 2 ^ L ∣ R) (hc : 2 ^ L ∣ C) (m : Nat → Nat → ℝ) : ∀ k ≤ L,
    bwdN R C k (fwdN R C k m) = m := by
  intro k
  induction k with
  | zero => intro _; rfl
  | succ k ih =>
    intro hk
    have := stepT_inv (R / 2 ^ k) (C / 2 ^ k) (pow_div_even hr (by omega)) (pow_div_even hc (by omega)) false (fwdN R C k m)
    rw [fwdN, bwdN, show stepT true (R / 2 ^ k) (C / 2 ^ k) _ = _ from this, ih (by omega)]

theorem fwdN_bwdN (R C L : Nat) (hr : 2 ^ L ∣ R) (hc : 2 ^ L ∣ C) : ∀ k ≤ L, ∀ m : Nat → Nat → ℝ,
    fwdN R C k (bwdN R C k m) = m := by
  intro k
  induction k with
  | zero => intro _ m; rfl
  | succ k ih =>
    intro hk m
    have := stepT_inv (R / 2 ^ k) (C / 2 ^ k) (pow_div_even hr (by omega)) (pow_div_even hc (by omega)) true m
    rw [bwdN, fwdN, ih (by omega)]
    exact this

/-! ### Energy -/

open Finset in
theorem sum_pairs (n : Nat) (hn : n % 2 = 0) (f : Nat → ℝ) :
    ∑ i ∈ range n, f i = ∑ k ∈ range (n / 2), (f (2 * k) + f (2 * k + 1)) := by
  obtain ⟨q, rfl⟩ : ∃ q, n = 2 * q := ⟨n / 2, by omega⟩
  rw [Nat.mul_div_cancel_left _ (by norm_num)]
  clear hn
  induction q with
  | zero => simp
  | succ q ih =>
    rw [show 2 * (q + 1) = 2 * q + 1 + 1 by ring, sum_range_succ, sum_range_succ, ih, sum_range_succ]; ring

open Finset in
theorem sum_halves (n : Nat) (hn : n % 2 = 0) (f : Nat → ℝ) :
    ∑ i ∈ range n, f i = ∑ k ∈ range (n / 2), (f k + f (n / 2 + k)) := by
  conv_lhs => rw [show n = n / 2 + n / 2 by omega]
  rw [sum_range_add, sum_add_distrib]

open Finset in
/-- One level keeps the sum of squares of a vector. -/
theorem energy_1d (n : Nat) (hn : n % 2 = 0) (b : Bool) (v : Nat → ℝ) :
    ∑ i ∈ range n, (butterfly (srcPlus n b i) (v (srcA n b i)) (v (srcB n b i))) ^ 2 = ∑ i ∈ range n, (v i) ^ 2 := by
  have hrt := rt_sq
  cases b
  · rw [sum_halves n hn, sum_pairs n hn (fun i => (v i) ^ 2)]
    apply sum_congr rfl
    intro k hk
    have hk' : k < n / 2 := mem_range.mp hk
    have h2 : ¬ n / 2 + k < n / 2 := by omega
    have e : n / 2 + k - n / 2 = k := by omega
    simp only [srcA, srcB, srcPlus, Bool.false_eq_true, if_false, hk', h2, e, if_true, butterfly_real, sgn,
      decide_true, decide_false]
    linear_combination (2 * (v (2 * k)) ^ 2 + 2 * (v (2 * k + 1)) ^ 2) * hrt
  · rw [sum_pairs n hn, sum_halves n hn (fun i => (v i) ^ 2)]
    apply sum_congr rfl
    intro k hk
    have e1 : 2 * k / 2 = k := by omega
    have e2 : (2 * k + 1) / 2 = k := by omega
    have e3 : 2 * k % 2 = 0 := by omega
    have e4 : (2 * k + 1) % 2 = 1 := by omega
    simp only [srcA, srcB, srcPlus, if_true, e1, e2, e3, e4, butterfly_real, sgn, decide_true, decide_false,
      one_ne_zero, Bool.false_eq_true, if_false]
    linear_combination (2 * (v k) ^ 2 + 2 * (v (n / 2 + k)) ^ 2) * hrt

/-- Sum of squares of a matrix. -/
noncomputable def energy (R C : Nat) (m : Nat → Nat → ℝ) : ℝ :=
  ∑ i ∈ Finset.range R, ∑ j ∈ Finset.range C, (m i j) ^ 2

open Finset in
theorem energy_rowPass (R C w h : Nat) (hw : w ≤ R) (hh : h ≤ C) (he : h % 2 = 0) (b : Bool) (m : Nat → Nat → ℝ) :
    energy R C (rowPass w h b m) = energy R C m := by
  unfold energy
  apply sum_congr rfl
  intro i _
  by_cases hi : i < w
  · rw [show C = h + (C - h) by omega, sum_range_add, sum_range_add (fun j => (m i j) ^ 2)]
    congr 1
    · rw [← energy_1d h he b (m i)]
      apply sum_congr rfl
      intro j hj
      rw [rowPass_eq, if_pos ⟨hi, mem_range.mp hj⟩]
    · apply sum_congr rfl
      intro j _
      rw [rowPass_eq, if_neg (by omega)]
  · apply sum_congr rfl
    intro j _
    rw [rowPass_eq, if_neg (by omega)]

open Finset in
theorem energy_colPass (R C w h : Nat) (hw : w ≤ R) (hh : h ≤ C) (he : w % 2 = 0) (b : Bool) (m : Nat → Nat → ℝ) :
    energy R C (colPass w h b m) = energy R C m := by
  unfold energy
  rw [sum_comm, sum_comm (f := fun i j => (m i j) ^ 2)]
  apply sum_congr rfl
  intro j _
  by_cases hj : j < h
  · rw [show R = w + (R - w) by omega, sum_range_add, sum_range_add (fun i => (m i j) ^ 2)]
    congr 1
    · rw [← energy_1d w he b (fun i => m i j)]
      apply sum_congr rfl
      intro i hi
      rw [colPass_eq, if_pos ⟨mem_range.mp hi, hj⟩]
    · apply sum_congr rfl
      intro i _
      rw [colPass_eq, if_neg (by omega)]
  · apply sum_congr rfl
    intro i _
    rw [colPass_eq, if_neg (by omega)]

theorem energy_fwdN (R C L : Nat) (hr : 2 ^ L ∣ R) (hc : 2 ^ L ∣ C) (m : Nat → Nat → ℝ) : ∀ k ≤ L,
    energy R C (fwdN R C k m) = energy R C m := by
  intro k
  induction k with
  | zero => intro _; rfl
  | succ k ih =>
    intro hk
    have h1 := pow_div_even hr (show k < L by omega)
    have h2 := pow_div_even hc (show k < L by omega)
    rw [fwdN, stepT, energy_colPass _ _ _ _ (Nat.div_le_self _ _) (Nat.div_le_self _ _) h1,
      energy_rowPass _ _ _ _ (Nat.div_le_self _ _) (Nat.div_le_self _ _) h2, ih (by omega)]

/-! ### The low-low corner -/

open Finset in
/-- Sum over a square block. -/
noncomputable def blockSum (s : Nat) (m : Nat → Nat → ℝ) (i j : Nat) : ℝ :=
  ∑ a ∈ range s, ∑ b ∈ range s, m (i * s + a) (j * s + b)

theorem stepT_lowLow (w h : Nat) (hw : w % 2 = 0) (hh : h % 2 = 0) (m : Nat → Nat → ℝ) (i j : Nat) (hi : i < w / 2)
    (hj : j < h / 2) : stepT false w h m i j =
      (m (2 * i) (2 * j) + m (2 * i) (2 * j + 1) + m (2 * i + 1) (2 * j) + m (2 * i + 1) (2 * j + 1)) / 2 := by
  have hrt := rt_sq
  have a1 : 2 * i < w := by omega
  have a2 : 2 * i + 1 < w := by omega
  have a3 : i < w := by omega
  have a4 : j < h := by omega
  unfold stepT
  rw [colPass_eq, if_pos ⟨a3, a4⟩]
  simp only [srcA, srcB, srcPlus, Bool.false_eq_true, if_false, hi, if_true, butterfly_real, sgn, decide_true, rowPass_eq,
    a1, a2, a4, and_self, hj]
  linear_combination (m (2 * i) (2 * j) + m (2 * i) (2 * j + 1) + m (2 * i + 1) (2 * j) + m (2 * i + 1) (2 * j + 1)) * hrt

open Finset in
theorem sum_double (s : Nat) (f : Nat → ℝ) :
    ∑ a ∈ range (s * 2), f a = ∑ a ∈ range s, f a + ∑ a ∈ range s, f (s + a) := by
  rw [mul_two, sum_range_add]

open Finset in
theorem blockSum_double (s : Nat) (m : Nat → Nat → ℝ) (i j : Nat) :
    blockSum (s * 2) m i j = blockSum s m (2 * i) (2 * j) + blockSum s m (2 * i) (2 * j + 1)
      + blockSum s m (2 * i + 1) (2 * j) + blockSum s m (2 * i + 1) (2 * j + 1) := by
  unfold blockSum
  rw [sum_double]
  simp only [sum_double, sum_add_distrib]
  have e1 : i * (s * 2) = 2 * i * s := by ring
  have e2 : j * (s * 2) = 2 * j * s := by ring
  have e3 : ∀ a, (2 * i + 1) * s + a = 2 * i * s + (s + a) := by intro a; ring
  have e4 : ∀ a, (2 * j + 1) * s + a = 2 * j * s + (s + a) := by intro a; ring
  simp only [e1, e2, e3, e4]
  ring

/-- Entry of the low-low corner after `k` levels. -/
theorem fwdN_lowLow (R C L : Nat) (hr : 2 ^ L ∣ R) (hc : 2 ^ L ∣ C) (m : Nat → Nat → ℝ) : ∀ k ≤ L, ∀ i < R / 2 ^ k,
    ∀ j < C / 2 ^ k, fwdN R C k m i j = blockSum (2 ^ k) m i j / 2 ^ k := by
  intro k
  induction k with
  | zero => intro _ i _ j _; simp [fwdN, blockSum]
  | succ k ih =>
    intro hk i hi j hj
    have h1 := pow_div_even hr (show k < L by omega)
    have h2 := pow_div_even hc (show k < L by omega)
    rw [div_pow_succ] at hi hj
    rw [fwdN, stepT_lowLow _ _ h1 h2 _ _ _ hi hj]
    have hk' : k ≤ L := by omega
    rw [ih hk' (2 * i) (by omega) (2 * j) (by omega), ih hk' (2 * i) (by omega) (2 * j + 1) (by omega),
      ih hk' (2 * i + 1) (by omega) (2 * j) (by omega), ih hk' (2 * i + 1) (by omega) (2 * j + 1) (by omega),
      pow_succ, pow_succ, blockSum_double]
    field_simp

/-- A backward step turns a change of the low-low quadrant into half that change on 2x2 blocks. -/
theorem stepT_back_add (w h : Nat) (hw : w % 2 = 0) (hh : h % 2 = 0) (m D : Nat → Nat → ℝ)
    (hD : ∀ i j, ¬ (i < w / 2 ∧ j < h / 2) → D i j = 0) :
    stepT true w h (fun i j => m i j + D i j) = fun i j => stepT true w h m i j + D (i / 2) (j / 2) / 2 := by
  funext i j
  have hrt := rt_sq
  unfold stepT
  rw [colPass_eq, colPass_eq]
  by_cases hc : i < w ∧ j < h
  · rw [if_pos hc, if_pos hc]
    have a1 : i / 2 < w := by omega
    have a2 : w / 2 + i / 2 < w := by omega
    have d1 : D (i / 2) (h / 2 + j / 2) = 0 := hD _ _ (by omega)
    have d2 : D (w / 2 + i / 2) (j / 2) = 0 := hD _ _ (by omega)
    have d3 : D (w / 2 + i / 2) (h / 2 + j / 2) = 0 := hD _ _ (by omega)
    simp only [srcA, srcB, if_true, butterfly_real, rowPass_eq, a1, a2, hc.2, and_self, d1, d2, d3]
    linear_combination (D (i / 2) (j / 2)) * hrt
  · rw [if_neg hc, if_neg hc, rowPass_eq, rowPass_eq, if_neg hc, if_neg hc, hD i j (by omega), hD (i / 2) (j / 2) (by omega)]
    simp

theorem bwdN_add (R C L : Nat) (hr : 2 ^ L ∣ R) (hc : 2 ^ L ∣ C) : ∀ k ≤ L, ∀ m D : Nat → Nat → ℝ,
    (∀ i j, ¬ (i < R / 2 ^ k ∧ j < C / 2 ^ k) → D i j = 0) →
    bwdN R C k (fun i j => m i j + D i j) = fun i j => bwdN R C k m i j + D (i / 2 ^ k) (j / 2 ^ k) / 2 ^ k := by
  intro k
  induction k with
  | zero => intro _ m D _; simp [bwdN]
  | succ k ih =>
    intro hk m D hD
    have h1 := pow_div_even hr (show k < L by omega)
    have h2 := pow_div_even hc (show k < L by omega)
    rw [bwdN, bwdN, stepT_back_add _ _ h1 h2 m D (by rw [← div_pow_succ, ← div_pow_succ]; exact hD),
      ih (by omega) (stepT true (R / 2 ^ k) (C / 2 ^ k) m) (fun i j => D (i / 2) (j / 2) / 2) (by
        intro i j hij
        rw [hD, zero_div]
        rw [div_pow_succ, div_pow_succ]
        omega)]
    funext i j
    rw [Nat.div_div_eq_div_mul, Nat.div_div_eq_div_mul, ← pow_succ]
    rw [show ((2 : ℝ) ^ (k + 1)) = 2 ^ k * 2 by rw [pow_succ]]
    field_simp

end Sia
