import Verif.Lemmas.HaarError
import Verif.Lemmas.FloatInstances

/-! C19–C21: the wavelet transform. `dwt2d m L false` is the forward, `dwt2d m L true` the backward transform. -/
namespace Sia
open FloatOps LawfulFloat Finset

/-- C19: in exact arithmetic, for dimensions divisible by `2^L`, both transforms succeed and each undoes the other. -/
theorem dwt_perfect_reconstruction (m : Mat ℝ) (L : Nat) (h1 : 1 ≤ L) (hL : L ≤ 31) (hr : 2 ^ L ∣ m.rows)
    (hc : 2 ^ L ∣ m.cols) :
    (∃ c, dwt2d m L false = .ok c ∧ dwt2d c L true = .ok m) ∧ (∃ c, dwt2d m L true = .ok c ∧ dwt2d c L false = .ok m) := by
  constructor
  · refine ⟨_, dwt2d_forward m L h1 hL hr hc, ?_⟩
    rw [dwt2d_backward ⟨m.rows, m.cols, fwdN m.rows m.cols L m.get⟩ L h1 hL hr hc]
    rw [bwdN_fwdN m.rows m.cols L hr hc m.get L le_rfl]
  · refine ⟨_, dwt2d_backward m L h1 hL hr hc, ?_⟩
    rw [dwt2d_forward ⟨m.rows, m.cols, bwdN m.rows m.cols L m.get⟩ L h1 hL hr hc]
    rw [fwdN_bwdN m.rows m.cols L hr hc L le_rfl m.get]

/-- C19: the forward transform of a non-empty matrix of any float type aborts unless `1 <= L <= 31` and both dimensions are
divisible by `2^L`; it never changes the dimensions. -/
theorem dwt_succeeds_iff {F : Type} [FloatOps F] (m : Mat F) (L : Nat) (hr : 0 < m.rows) (hc : 0 < m.cols) :
    (∃ c, dwt2d m L false = .ok c) ↔ 1 ≤ L ∧ L ≤ 31 ∧ 2 ^ L ∣ m.rows ∧ 2 ^ L ∣ m.cols := by
  constructor
  · rintro ⟨c, h⟩; exact dwt2d_forward_dvd m c L hr hc h
  · rintro ⟨a, b, c, d⟩; exact ⟨_, dwt2d_forward m L a b c d⟩

/-- C19, floating point: forward then backward reproduces every entry up to `32 L (81/16)^L u M`, where `M >= 1` bounds
the entries and `u` is the unit roundoff (`2^-53` for binary64). -/
theorem dwt_reconstruction_float {F : Type} [FloatOps F] [LawfulFloat F] (m : Mat F) (L : Nat) (h1 : 1 ≤ L) (hL : L ≤ 31)
    (hr : 2 ^ L ∣ m.rows) (hc : 2 ^ L ∣ m.cols) (M : ℝ) (hM1 : 1 ≤ M) (hM2 : M ≤ 2 ^ 60)
    (hm : ∀ i < m.rows, ∀ j < m.cols, fin (m.get i j) ∧ |val (m.get i j)| ≤ M) :
    ∃ c m', dwt2d m L false = .ok c ∧ dwt2d c L true = .ok m' ∧ m'.rows = m.rows ∧ m'.cols = m.cols ∧
      ∀ i < m.rows, ∀ j < m.cols, fin (m'.get i j) ∧
        |val (m'.get i j) - val (m.get i j)| ≤ 32 * L * (81 / 16) ^ L * u F * M := by
  refine ⟨_, _, dwt2d_forward m L h1 hL hr hc, dwt2d_backward _ L h1 hL hr hc, rfl, rfl, ?_⟩
  intro i hi j hj
  have hp : (1 : ℝ) ≤ (3 / 2) ^ (2 * L) := one_le_pow₀ (by norm_num)
  have hp2 : ((3 : ℝ) / 2) ^ (2 * L) ≤ (3 / 2) ^ 62 := pow_le_pow_right₀ (by norm_num) (by omega)
  have hpc : ((3 : ℝ) / 2) ^ 62 ≤ 2 ^ 40 := by norm_num
  have hb1 : ((3 : ℝ) / 2) ^ (2 * L) * M ≤ 2 ^ 100 := by
    calc ((3 : ℝ) / 2) ^ (2 * L) * M ≤ 2 ^ 40 * 2 ^ 60 := mul_le_mul (by linarith) hM2 (by linarith) (by norm_num)
      _ = _ := by norm_num
  have hb2 : ((3 : ℝ) / 2) ^ (2 * L) * ((3 / 2) ^ (2 * L) * M) ≤ 2 ^ 150 := by
    calc ((3 : ℝ) / 2) ^ (2 * L) * ((3 / 2) ^ (2 * L) * M) ≤ 2 ^ 40 * 2 ^ 100 :=
          mul_le_mul (by linarith) hb1 (by positivity) (by norm_num)
      _ ≤ _ := by norm_num
  have n0 : Near m.rows m.cols 0 M m.get (fun i j => val (m.get i j)) :=
    fun i hi j hj => ⟨(hm i hi j hj).1, by simp, (hm i hi j hj).2⟩
  have n1 := fwdN_near m.rows m.cols L hr hc 0 M le_rfl hM1 (by linarith [show (2 : ℝ) ^ 100 ≤ 2 ^ 150 by norm_num]) _ _ n0 L le_rfl
  have hu := u_nonneg (F := F)
  have n2 := bwdN_near m.rows m.cols L hr hc _ _ (by positivity) (le_trans hM1 (le_mul_of_one_le_left (by linarith) hp))
    hb2 _ _ n1
  obtain ⟨a, b, _⟩ := n2 i hi j hj
  refine ⟨a, ?_⟩
  rw [bwdN_fwdN m.rows m.cols L hr hc _ L le_rfl] at b
  refine le_trans b (le_of_eq ?_)
  have e : ((81 : ℝ) / 16) ^ L = (3 / 2) ^ (2 * L) * (3 / 2) ^ (2 * L) := by
    rw [← pow_add, ← two_mul, ← mul_assoc, pow_mul]; norm_num
  rw [e]
  push_cast
  ring

/-- C20: the forward transform preserves the sum of squares of all entries. -/
theorem dwt_preserves_energy (m c : Mat ℝ) (L : Nat) (hr : 0 < m.rows) (hc : 0 < m.cols) (h : dwt2d m L false = .ok c) :
    c.rows = m.rows ∧ c.cols = m.cols ∧
    ∑ i ∈ range c.rows, ∑ j ∈ range c.cols, (c.get i j) ^ 2 = ∑ i ∈ range m.rows, ∑ j ∈ range m.cols, (m.get i j) ^ 2 := by
  obtain ⟨h1, hL, hr', hc'⟩ := dwt2d_forward_dvd m c L hr hc h
  rw [dwt2d_forward m L h1 hL hr' hc'] at h
  cases h
  exact ⟨rfl, rfl, energy_fwdN m.rows m.cols L hr' hc' m.get L le_rfl⟩

/-- C21: entry `(i, j)` of the low-low corner is the sum of the `2^L x 2^L` block of the image at `(i, j)` divided by `2^L`. -/
theorem lowLow_is_block_sum (m c : Mat ℝ) (L : Nat) (hr : 0 < m.rows) (hc : 0 < m.cols) (h : dwt2d m L false = .ok c)
    (i j : Nat) (hi : i < m.rows / 2 ^ L) (hj : j < m.cols / 2 ^ L) :
    c.get i j = (∑ a ∈ range (2 ^ L), ∑ b ∈ range (2 ^ L), m.get (i * 2 ^ L + a) (j * 2 ^ L + b)) / 2 ^ L := by
  obtain ⟨h1, hL, hr', hc'⟩ := dwt2d_forward_dvd m c L hr hc h
  rw [dwt2d_forward m L h1 hL hr' hc'] at h
  cases h
  exact fwdN_lowLow m.rows m.cols L hr' hc' m.get L le_rfl i hi j hj

/-- C21: adding `t` to the low-low coefficient `(p, q)` before the backward transform adds `t / 2^L` to exactly the pixels
of block `(p, q)`. -/
theorem lowLow_change_spreads (c m : Mat ℝ) (L : Nat) (h1 : 1 ≤ L) (hL : L ≤ 31) (hr : 2 ^ L ∣ c.rows) (hc : 2 ^ L ∣ c.cols)
    (hb : dwt2d c L true = .ok m) (p q : Nat) (hp : p < c.rows / 2 ^ L) (hq : q < c.cols / 2 ^ L) (t : ℝ) :
    ∃ m', dwt2d (c.set p q (c.get p q + t)) L true = .ok m' ∧ m'.rows = m.rows ∧ m'.cols = m.cols ∧
      ∀ i j, m'.get i j = if i / 2 ^ L = p ∧ j / 2 ^ L = q then m.get i j + t / 2 ^ L else m.get i j := by
  rw [dwt2d_backward c L h1 hL hr hc] at hb
  cases hb
  refine ⟨_, dwt2d_backward (c.set p q (c.get p q + t)) L h1 hL hr hc, rfl, rfl, ?_⟩
  intro i j
  have e : (c.set p q (c.get p q + t)).get = fun i j => c.get i j + if i = p ∧ j = q then t else 0 := by
    funext i j
    unfold Mat.set
    dsimp only
    split_ifs with h
    · rw [h.1, h.2]
    · simp
  have := bwdN_add c.rows c.cols L hr hc L le_rfl c.get (fun i j => if i = p ∧ j = q then t else 0) (by
    intro i j hij
    rw [if_neg]
    rintro ⟨rfl, rfl⟩
    exact hij ⟨hp, hq⟩)
  show bwdN c.rows c.cols L (c.set p q (c.get p q + t)).get i j = _
  rw [e, this]
  dsimp only
  split_ifs <;> simp

/-- Hypotheses are met by a `16 x 24` image at three levels. -/
example : 2 ^ 3 ∣ (⟨16, 24, fun i j => (i * j : ℝ)⟩ : Mat ℝ).rows ∧ 2 ^ 3 ∣ (⟨16, 24, fun i j => (i * j : ℝ)⟩ : Mat ℝ).cols := by
  decide

example : ∃ c, dwt2d (⟨16, 24, fun i j => (i * j : ℝ)⟩ : Mat ℝ) 3 false = .ok c :=
  (dwt_succeeds_iff _ 3 (by decide) (by decide)).mpr (by decide)

/-- The binary64 bound at three levels on pixel data is below `2^-30`. -/
example : (32 * (3 : ℕ) * (81 / 16) ^ 3 * LawfulFloat.u F64 * 255 : ℝ) ≤ 1 / 2 ^ 30 := by
  show (32 * (3 : ℕ) * (81 / 16) ^ 3 * (1 / 2 ^ 53) * 255 : ℝ) ≤ 1 / 2 ^ 30
  norm_num

end Sia
