import Verif.Props.EmbedProps
import Verif.Props.HaarProps
import Mathlib.Algebra.BigOperators.Fin

/-! C61: what extraction can see of an image: only the pixel sums of its blocks, and only modulo the depth. -/
namespace Sia
open FloatOps Finset

/-- Sum of the pixels of block `(p, q)` of an image cut into blocks of side `s`. -/
def pixelSum (image : Mat UInt8) (s p q : Nat) : ℕ :=
  ∑ a ∈ range s, ∑ b ∈ range s, (image.get (p * s + a) (q * s + b)).toNat

section
variable {F : Type} [FloatOps F]

/-- Whether and how the transform aborts depends only on the dimensions. -/
theorem dwt_fold_dims (b : Bool) : ∀ (l : List Nat) (m m' : Mat F), m.rows = m'.rows → m.cols = m'.cols →
    (∃ e, l.foldlM (dwtIteration b) m = .error e ∧ l.foldlM (dwtIteration b) m' = .error e) ∨
    (∃ c c', l.foldlM (dwtIteration b) m = .ok c ∧ l.foldlM (dwtIteration b) m' = .ok c' ∧
      c.rows = m.rows ∧ c.cols = m.cols ∧ c'.rows = m.rows ∧ c'.cols = m.cols) := by
  intro l
  induction l with
  | nil => intro m m' h1 h2; exact Or.inr ⟨m, m', rfl, rfl, rfl, rfl, h1.symm, h2.symm⟩
  | cons k l ih =>
    intro m m' h1 h2
    simp only [List.foldlM_cons]
    have hm : ∀ x : Mat F, x.rows = m.rows → x.cols = m.cols → dwtIteration b x k =
        if 31 ≤ k then .error .arithOverflow
        else if (0 < m.rows / 2 ^ k ∧ m.cols / 2 ^ k % 2 ≠ 0) ∨ (0 < m.cols / 2 ^ k ∧ m.rows / 2 ^ k % 2 ≠ 0) then
          .error .dwtLength
        else .ok ⟨m.rows, m.cols, colPass (m.rows / 2 ^ k) (m.cols / 2 ^ k) b (rowPass (m.rows / 2 ^ k) (m.cols / 2 ^ k) b x.get)⟩ := by
      rintro ⟨r, c, g⟩ h h'
      dsimp only at h h'
      subst h h'
      rfl
    rw [hm m rfl rfl, hm m' h1.symm h2.symm]
    split_ifs
    · exact Or.inl ⟨_, rfl, rfl⟩
    · exact Or.inl ⟨_, rfl, rfl⟩
    · exact ih _ _ rfl rfl

theorem dwt2d_dims_congr (m m' : Mat F) (L : Nat) (b : Bool) (h1 : m.rows = m'.rows) (h2 : m.cols = m'.cols) :
    (∃ e, dwt2d m L b = .error e ∧ dwt2d m' L b = .error e) ∨
    (∃ c c', dwt2d m L b = .ok c ∧ dwt2d m' L b = .ok c' ∧
      c.rows = m.rows ∧ c.cols = m.cols ∧ c'.rows = m.rows ∧ c'.cols = m.cols) := by
  unfold dwt2d
  by_cases hL : L = 0
  · rw [if_pos hL, if_pos hL]; exact Or.inl ⟨_, rfl, rfl⟩
  · rw [if_neg hL, if_neg hL]
    exact dwt_fold_dims b _ m m' h1 h2

/-- Reading depends only on the dimensions and on the bit of each cell in range. -/
theorem read_congr (m m' : Mat F) (d d' : F) (h1 : m.rows = m'.rows) (h2 : m.cols = m'.cols)
    (h : ∀ i < m.rows, ∀ j < m.cols, readCell d (m.get i j) = readCell d' (m'.get i j)) : read m d = read m' d' := by
  unfold read
  rw [h1, h2]
  congr 1
  funext k
  unfold readByte
  congr 2
  funext i
  unfold readBit
  rw [h1, h2]
  dsimp only
  split_ifs with hc
  · rw [h _ (h1 ▸ hc.1) _ (h2 ▸ hc.2)]
  · rfl

/-- Extraction depends on the image only through its dimensions and the bits of its low-low corner. -/
theorem extract_congr (L : Ldpc) (a b : Mat UInt8) (d d' : F) (levels : Nat) (h1 : a.rows = b.rows) (h2 : a.cols = b.cols)
    (h : ∀ ca cb : Mat F, dwt2d (a.map pixelToFloat) levels false = .ok ca → dwt2d (b.map pixelToFloat) levels false = .ok cb →
      ∀ i < a.rows / 2 ^ levels, ∀ j < a.cols / 2 ^ levels, readCell d (ca.get i j) = readCell d' (cb.get i j)) :
    extract L a d levels = extract L b d' levels := by
  unfold extract
  rcases dwt2d_dims_congr (a.map (pixelToFloat (F := F))) (b.map pixelToFloat) levels false h1 h2 with
    ⟨e, e1, e2⟩ | ⟨ca, cb, e1, e2, r1, r2, r3, r4⟩
  · rw [e1, e2]; rfl
  · rw [e1, e2]
    simp only [bind, Except.bind]
    have hread : read (lowLow ca levels) d = read (lowLow cb levels) d' := by
      apply read_congr
      · unfold lowLow; dsimp only; rw [r1, r3]
      · unfold lowLow; dsimp only; rw [r2, r4]
      · unfold lowLow; dsimp only
        rw [r1, r2]
        exact h ca cb e1 e2
    rw [hread]
    unfold lowLow
    dsimp only
    rw [r1, r2, r3, r4]

end

/-- For non-negative values the rounding of the reader commutes with whole shifts. -/
theorem roundAway_shift (x : ℝ) (k : ℤ) (hx : 0 ≤ x) (hk : 0 ≤ x + k) : roundAway (x + k) = roundAway x + k := by
  unfold roundAway
  rw [if_pos hx, if_pos hk, show x + k + 1 / 2 = x + 1 / 2 + k by ring, Int.floor_add_intCast]

theorem readCell_shift (d c : ℝ) (k : ℤ) (hd : 0 < d) (hc : 0 ≤ c) (hk : 0 ≤ c + k * d) :
    readCell d (c + k * d) = readCell d c := by
  rw [readCell_real, readCell_real]
  have e : (c + k * d) / d = c / d + k := by field_simp
  rw [e, roundAway_shift _ _ (by positivity) (by rw [← e]; positivity)]
  push_cast
  congr 1
  rw [eq_iff_iff]
  constructor <;> intro h <;> nlinarith

/-- C61: in exact arithmetic and for a positive depth, two images of the same size whose block sums agree modulo
`2^levels * depth` are indistinguishable to extraction: the same bytes, or the same abort, whatever the code. -/
theorem extract_sees_block_sums (L : Ldpc) (a b : Mat UInt8) (depth : ℝ) (levels : Nat) (hd : 0 < depth)
    (hr : 0 < a.rows) (hc : 0 < a.cols) (h1 : b.rows = a.rows) (h2 : b.cols = a.cols)
    (h : ∀ p < a.rows / 2 ^ levels, ∀ q < a.cols / 2 ^ levels, ∃ k : ℤ,
      (pixelSum b (2 ^ levels) p q : ℝ) = pixelSum a (2 ^ levels) p q + k * (2 ^ levels * depth)) :
    extract L b depth levels = extract L a depth levels := by
  apply extract_congr L b a depth depth levels h1 h2
  intro cb ca eb ea i hi j hj
  rw [h1] at hi
  rw [h2] at hj
  have sb := lowLow_is_block_sum (b.map pixelToFloat) cb levels (by rw [← h1] at hr; exact hr) (by rw [← h2] at hc; exact hc) eb i j
    (by rw [← h1] at hi; exact hi) (by rw [← h2] at hj; exact hj)
  have sa := lowLow_is_block_sum (a.map pixelToFloat) ca levels hr hc ea i j hi hj
  have cast : ∀ x : Mat UInt8, (∑ u ∈ range (2 ^ levels), ∑ v ∈ range (2 ^ levels),
      (x.map (pixelToFloat (F := ℝ))).get (i * 2 ^ levels + u) (j * 2 ^ levels + v)) = (pixelSum x (2 ^ levels) i j : ℝ) := by
    intro x
    unfold pixelSum
    push_cast
    rfl
  rw [cast] at sa sb
  obtain ⟨k, hk⟩ := h i hi j hj
  have e : cb.get i j = ca.get i j + k * depth := by
    rw [sa, sb, hk]
    field_simp
  have pa : 0 ≤ ca.get i j := by rw [sa]; positivity
  have pb : 0 ≤ cb.get i j := by rw [sb]; positivity
  rw [e]
  exact readCell_shift depth _ k hd pa (by rw [← e]; exact pb)

/-- C61: rearranging the pixels inside each block, in any way, changes nothing. -/
theorem extract_ignores_arrangement (L : Ldpc) (a b : Mat UInt8) (depth : ℝ) (levels : Nat) (hd : 0 < depth)
    (hr : 0 < a.rows) (hc : 0 < a.cols) (h1 : b.rows = a.rows) (h2 : b.cols = a.cols)
    (σ : Nat → Nat → Equiv.Perm (Fin (2 ^ levels) × Fin (2 ^ levels)))
    (h : ∀ p < a.rows / 2 ^ levels, ∀ q < a.cols / 2 ^ levels, ∀ u : Fin (2 ^ levels) × Fin (2 ^ levels),
      b.get (p * 2 ^ levels + u.1) (q * 2 ^ levels + u.2) =
        a.get (p * 2 ^ levels + (σ p q u).1) (q * 2 ^ levels + (σ p q u).2)) :
    extract L b depth levels = extract L a depth levels := by
  apply extract_sees_block_sums L a b depth levels hd hr hc h1 h2
  intro p hp q hq
  refine ⟨0, ?_⟩
  have key : ∀ x : Mat UInt8, pixelSum x (2 ^ levels) p q =
      ∑ u : Fin (2 ^ levels) × Fin (2 ^ levels), (x.get (p * 2 ^ levels + u.1) (q * 2 ^ levels + u.2)).toNat := by
    intro x
    unfold pixelSum
    rw [Fintype.sum_prod_type]
    simp only [Finset.sum_range]
  rw [key, key]
  simp only [h p hp q hq]
  rw [Equiv.sum_comp (σ p q) (fun u => (a.get (p * 2 ^ levels + u.1) (q * 2 ^ levels + u.2)).toNat)]
  simp

/-- C61: brightening every pixel of some blocks by `s` levels, where `s * 2^levels` is a multiple of the depth and nothing
overflows, changes nothing: at three levels and depth 100, twenty-five levels. -/
theorem extract_ignores_depth_shift (L : Ldpc) (a b : Mat UInt8) (depth : ℝ) (levels s k : Nat) (hd : 0 < depth)
    (hr : 0 < a.rows) (hc : 0 < a.cols) (h1 : b.rows = a.rows) (h2 : b.cols = a.cols)
    (hs : (s : ℝ) * 2 ^ levels = k * depth) (bright : Nat → Nat → Bool)
    (h : ∀ i < a.rows, ∀ j < a.cols, (b.get i j).toNat = (a.get i j).toNat + if bright (i / 2 ^ levels) (j / 2 ^ levels) then s else 0) :
    extract L b depth levels = extract L a depth levels := by
  apply extract_sees_block_sums L a b depth levels hd hr hc h1 h2
  intro p hpr q hqc
  have hp : 0 < 2 ^ levels := by positivity
  have inside : ∀ {N P u : Nat}, P < N / 2 ^ levels → u < 2 ^ levels → P * 2 ^ levels + u < N := by
    intro N P u hP hu
    have := Nat.mul_le_mul_right (2 ^ levels) (show P + 1 ≤ N / 2 ^ levels from hP)
    have h3 := Nat.div_mul_le_self N (2 ^ levels)
    rw [Nat.succ_mul] at this
    omega
  have e : pixelSum b (2 ^ levels) p q = pixelSum a (2 ^ levels) p q +
      2 ^ levels * 2 ^ levels * (if bright p q then s else 0) := by
    unfold pixelSum
    have : ∀ u ∈ range (2 ^ levels), ∀ v ∈ range (2 ^ levels), (b.get (p * 2 ^ levels + u) (q * 2 ^ levels + v)).toNat =
        (a.get (p * 2 ^ levels + u) (q * 2 ^ levels + v)).toNat + if bright p q then s else 0 := by
      intro u hu v hv
      rw [mem_range] at hu hv
      have e1 : (p * 2 ^ levels + u) / 2 ^ levels = p := by
        rw [mul_comm, Nat.mul_add_div hp, Nat.div_eq_of_lt hu, add_zero]
      have e2 : (q * 2 ^ levels + v) / 2 ^ levels = q := by
        rw [mul_comm, Nat.mul_add_div hp, Nat.div_eq_of_lt hv, add_zero]
      rw [h _ (inside hpr hu) _ (inside hqc hv), e1, e2]
    rw [sum_congr rfl fun u hu => sum_congr rfl fun v hv => this u hu v hv]
    simp only [sum_add_distrib, sum_const, card_range, smul_eq_mul]
    ring
  rw [e]
  push_cast
  by_cases hb : bright p q
  · refine ⟨k, ?_⟩
    simp only [hb, if_true]
    push_cast
    linear_combination (2 : ℝ) ^ levels * hs
  · refine ⟨0, ?_⟩
    simp [hb]

/-- A concrete case: the left half of a 512 x 512 image brightened by 25 levels is read the same at depth 100. -/
example : extract Ldpc.toy (⟨512, 512, fun i j => UInt8.ofNat (100 + (i * j) % 32 + if j / 8 < 32 then 25 else 0)⟩ : Mat UInt8)
      (100 : ℝ) 3 =
    extract Ldpc.toy (⟨512, 512, fun i j => UInt8.ofNat (100 + (i * j) % 32)⟩ : Mat UInt8) (100 : ℝ) 3 := by
  apply extract_ignores_depth_shift (s := 25) (k := 2) (bright := fun _ q => decide (q < 32))
  · norm_num
  · norm_num
  · norm_num
  · rfl
  · rfl
  · norm_num
  · intro i _ j _
    dsimp only
    have e : (2 : ℕ) ^ 3 = 8 := by norm_num
    rw [e]
    by_cases h : j / 8 < 32
    · simp only [h, if_true, decide_true, UInt8.toNat_ofNat']; omega
    · simp only [h, if_false, decide_false, UInt8.toNat_ofNat', Bool.false_eq_true]; omega

end Sia
