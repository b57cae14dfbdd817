import Verif.Props.QuantProps
import Verif.Lemmas.CellLemmas
import Verif.Lemmas.FloatInstances

/-! C02: three-bit quantization in floating-point arithmetic. -/
namespace Sia
open FloatOps LawfulFloat

/-- `x` (a value measured in steps) is at least `μ` away from every cell boundary and every cell centre. -/
def AwayFromHalves (μ x : ℝ) : Prop := ∀ k : ℤ, μ ≤ |x - k / 2|

theorem floor_stable (x y μ e : ℝ) (hx : ∀ k : ℤ, μ ≤ |x - k|) (hy : |y - x| ≤ e) (he : e < μ ∨ e = 0) : ⌊y⌋ = ⌊x⌋ := by
  rcases he with he | he
  · rw [Int.floor_eq_iff]
    have h1 := hx ⌊x⌋
    have h2 := hx (⌊x⌋ + 1)
    have h3 := Int.floor_le x
    have h4 := Int.lt_floor_add_one x
    rw [abs_of_nonneg (by linarith)] at h1
    rw [abs_of_nonpos (by push_cast; linarith)] at h2
    push_cast at h2
    obtain ⟨a, b⟩ := abs_le.mp hy
    constructor <;> linarith
  · have : y = x := by
      rw [he] at hy
      have := abs_nonpos_iff.mp hy
      linarith
    rw [this]

section
variable {F : Type} [FloatOps F] [LawfulFloat F]

theorem away_int {μ x : ℝ} (h : AwayFromHalves μ x) (k : ℤ) : μ ≤ |x - k| := by
  have := h (2 * k)
  push_cast at this
  rwa [mul_div_cancel_left₀ _ (by norm_num : (2 : ℝ) ≠ 0)] at this

theorem away_shift {μ x : ℝ} (h : AwayFromHalves μ x) (z : ℤ) : AwayFromHalves μ (x + z) := by
  intro k
  have := h (k - 2 * z)
  push_cast at this
  rwa [show x - ((k : ℝ) - 2 * z) / 2 = x + z - k / 2 by ring] at this

/-- Either the arithmetic is exact or the roundoff is positive. -/
theorem u_cases : u F = 0 ∨ 0 < u F := by
  rcases (u_nonneg (F := F)).eq_or_lt with h | h
  · left; exact h.symm
  · right; exact h

/-- The float cell of a value away from boundaries is the real cell, also if the value itself carries an error `δ`. -/
theorem quantizeOne_float (step f : F) (hs : GoodDepth step) (hf : fin f) (K : ℝ) (hK0 : 0 ≤ K) (hK : K ≤ 2 ^ 45)
    (x : ℝ) (hx : |x| ≤ K) (hfx : |val f - x * val step| ≤ u F * (K + 2) * val step)
    (haway : ∀ k : ℤ, u F * (3 * K + 6) ≤ |x - k|) :
    quantizeOne step f = ⌊x⌋ := by
  have hS := hs.pos
  have hu := u_nonneg (F := F)
  have huK := u_mul_le (F := F) (K + 2) (by linarith) (by norm_num at hK ⊢; linarith)
  have hq : |val f / val step - x| ≤ u F * (K + 2) := by
    rw [show val f / val step - x = (val f - x * val step) / val step by field_simp, abs_div, abs_of_pos hS,
      div_le_iff₀ hS]
    exact hfx
  have hq1 : |val f / val step| ≤ K + 1 := by
    have := abs_add_le (val f / val step - x) x
    simp only [sub_add_cancel] at this
    linarith
  obtain ⟨dfin, derr⟩ := div_spec f step hf hs.fin hS.ne' (le_trans hq1 (by norm_num at hK ⊢; linarith))
  obtain ⟨ffin, fval⟩ := floor_spec _ dfin
  unfold quantizeOne
  rw [truncSat_spec _ _ _ ffin, fval, truncZ_intCast]
  have hw : omega ≤ 1 := by unfold omega; norm_num
  have herr : |val (div f step) - x| ≤ u F * (2 * K + 4) := by
    have h1 : |val (div f step) - x| ≤ |val (div f step) - val f / val step| + |val f / val step - x| := by
      have := abs_add_le (val (div f step) - val f / val step) (val f / val step - x)
      simpa using this
    have h2 : u F * (|val f / val step| + omega) ≤ u F * (K + 2) := mul_le_mul_of_nonneg_left (by linarith) hu
    calc _ ≤ u F * (K + 2) + u F * (K + 2) := by linarith
      _ = _ := by ring
  have hfl := floor_stable x (val (div f step)) (u F * (3 * K + 6)) (u F * (2 * K + 4)) haway herr (by
    rcases u_cases (F := F) with h | h
    · right; rw [h]; ring
    · left; exact mul_lt_mul_of_pos_left (by linarith) h)
  rw [hfl]
  obtain ⟨ha, hb⟩ := abs_le.mp hx
  have hK' : K ≤ 2 ^ 45 := hK
  have h2 : -2 ^ 46 ≤ ⌊x⌋ := Int.le_floor.mpr (by push_cast; linarith)
  have h3 : ⌊x⌋ ≤ 2 ^ 46 := by
    have : (⌊x⌋ : ℝ) ≤ ((2 ^ 46 : ℤ) : ℝ) := le_trans (Int.floor_le _) (by push_cast; linarith)
    exact_mod_cast this
  unfold clampZ i64Min i64Max
  rw [if_neg (by omega), if_neg (by omega)]

theorem upperHalf_float (step f : F) (hs : GoodDepth step) (hf : fin f) (K : ℝ) (hK0 : 0 ≤ K) (hK : K ≤ 2 ^ 45)
    (q : ℤ) (hq : |(q : ℝ)| ≤ K + 1) (haway : u F * (3 * K + 6) ≤ |val f / val step - (q + 1 / 2)|) :
    upperHalf step f q = decide (val step * (q + 1 / 2) ≤ val f) := by
  have hS := hs.pos
  have hu := u_nonneg (F := F)
  have hwS := hs.omega_le
  have hw : omega ≤ 1 / 4 := by unfold omega; norm_num
  have huK := u_mul_le (F := F) (K + 2) (by linarith) (by norm_num at hK ⊢; linarith)
  have hqz : |q| ≤ 2 ^ 53 := by
    have : |(q : ℝ)| ≤ 2 ^ 53 := le_trans hq (by norm_num at hK ⊢; linarith)
    exact_mod_cast this
  obtain ⟨ofin, oval⟩ := ofInt_spec (F := F) q hqz
  have hl := lit_dyadic (F := F) 1 1 (by norm_num) (by norm_num)
  norm_num at hl
  obtain ⟨lfin, lval⟩ := hl
  have hqh : |(q : ℝ) + 1 / 2| ≤ K + 3 / 2 := by
    have := abs_add_le (q : ℝ) (1 / 2)
    rw [abs_of_pos (by norm_num : (0 : ℝ) < 1 / 2)] at this
    linarith
  obtain ⟨afin, aerr⟩ := add_spec (ofInt q : F) (lit (1 / 2)) ofin lfin (by
    rw [oval, lval]
    calc |(q : ℝ) + 1 / 2| ≤ K + 3 / 2 := hqh
      _ ≤ _ := by norm_num at hK ⊢; linarith)
  rw [oval, lval] at aerr
  set a := val (add (ofInt q : F) (lit (1 / 2))) with ha
  have aerr' : |a - (q + 1 / 2)| ≤ u F * (K + 2) := by
    have : u F * (|(q : ℝ) + (1 / 2)| + omega) ≤ u F * (K + 2) := mul_le_mul_of_nonneg_left (by linarith) hu
    exact le_trans aerr this
  have aabs : |a| ≤ K + 7 / 4 := by
    have := abs_add_le (a - (q + 1 / 2)) ((q : ℝ) + 1 / 2)
    simp only [sub_add_cancel] at this
    linarith
  have hprod : |val step * a| ≤ (K + 7 / 4) * val step := by
    rw [abs_mul, abs_of_pos hS, mul_comm]; exact mul_le_mul_of_nonneg_right aabs hS.le
  obtain ⟨mfin, merr⟩ := mul_spec step _ hs.fin afin (by
    refine le_trans hprod ?_
    calc (K + 7 / 4) * val step ≤ 2 ^ 46 * 2 ^ 100 :=
          mul_le_mul (by norm_num at hK ⊢; linarith) hs.upper hS.le (by positivity)
      _ ≤ _ := by norm_num)
  rw [← ha] at merr
  have key : |val (mul step (add (ofInt q : F) (lit (1 / 2)))) - val step * (q + 1 / 2)| ≤ u F * (2 * K + 4) * val step := by
    have h1 := abs_add_le (val (mul step (add (ofInt q : F) (lit (1 / 2)))) - val step * a) (val step * a - val step * (q + 1 / 2))
    simp only [sub_add_sub_cancel] at h1
    have h2 : |val step * a - val step * (q + 1 / 2)| ≤ u F * (K + 2) * val step := by
      rw [← mul_sub, abs_mul, abs_of_pos hS, mul_comm]; exact mul_le_mul_of_nonneg_right aerr' hS.le
    have h3 : u F * (|val step * a| + omega) ≤ u F * (K + 2) * val step := by
      rw [mul_assoc]; exact mul_le_mul_of_nonneg_left (by nlinarith) hu
    calc _ ≤ u F * (K + 2) * val step + u F * (K + 2) * val step := by linarith
      _ = _ := by ring
  unfold upperHalf
  rw [Bool.eq_iff_iff, decide_eq_true_iff, ge_spec _ _ hf mfin]
  have hd : u F * (3 * K + 6) * val step ≤ |val f - val step * (q + 1 / 2)| := by
    rw [show val f - val step * (q + 1 / 2) = (val f / val step - (q + 1 / 2)) * val step by field_simp, abs_mul,
      abs_of_pos hS]
    exact mul_le_mul_of_nonneg_right haway hS.le
  obtain ⟨k1, k2⟩ := abs_le.mp key
  rcases u_cases (F := F) with h0 | h0
  · rw [h0] at k1 k2
    have : val (mul step (add (ofInt q : F) (lit (1 / 2)))) = val step * (q + 1 / 2) := by linarith
    rw [this]
  · have hpos : u F * (2 * K + 4) * val step < u F * (3 * K + 6) * val step :=
      mul_lt_mul_of_pos_right (mul_lt_mul_of_pos_left (by linarith) h0) hS
    constructor
    · intro h
      by_contra hn
      rw [abs_of_neg (by linarith)] at hd
      linarith
    · intro h
      rw [abs_of_nonneg (by linarith)] at hd
      linarith

/-- Margin, in steps, for values of at most `K` steps. -/
noncomputable def quantMargin (F : Type) [FloatOps F] [LawfulFloat F] (K : ℝ) : ℝ := u F * (3 * K + 12)

theorem away_mono {μ ν x : ℝ} (h : AwayFromHalves ν x) (hm : μ ≤ ν) : AwayFromHalves μ x := fun k => le_trans hm (h k)

/-- A clean value: its cell and half bit are the real ones. -/
theorem bits_float (step f : F) (hs : GoodDepth step) (hf : fin f) (K : ℝ) (hK0 : 0 ≤ K) (hK : K ≤ 2 ^ 40)
    (hfK : |val f| ≤ K * val step) (haway : AwayFromHalves (u F * (3 * K + 6)) (val f / val step)) :
    quantizeOne step f = quantizeOne (val step) (val f) ∧
    upperHalf step f (quantizeOne step f) = upperHalf (val step) (val f) (quantizeOne (val step) (val f)) := by
  have hS := hs.pos
  have hu := u_nonneg (F := F)
  have hx : |val f / val step| ≤ K := by rw [abs_div, abs_of_pos hS, div_le_iff₀ hS]; exact hfK
  have e1 : quantizeOne step f = ⌊val f / val step⌋ := by
    refine quantizeOne_float step f hs hf K hK0 (by norm_num at hK ⊢; linarith) _ hx ?_ (fun k => away_int haway k)
    rw [div_mul_cancel₀ _ hS.ne', sub_self, abs_zero]; positivity
  have e2 : quantizeOne (val step) (val f) = ⌊val f / val step⌋ :=
    quantizeOne_real_eq _ _ hS (le_trans hfK (mul_le_mul_of_nonneg_right (by norm_num at hK ⊢; linarith) hS.le))
  refine ⟨by rw [e1, e2], ?_⟩
  rw [e1, e2, upperHalf_real]
  refine upperHalf_float step f hs hf K hK0 (by norm_num at hK ⊢; linarith) _ ?_ ?_
  · have h1 := Int.floor_le (val f / val step)
    have h2 := Int.lt_floor_add_one (val f / val step)
    obtain ⟨a, b⟩ := abs_le.mp hx
    rw [abs_le]; constructor <;> linarith
  · have := haway (2 * ⌊val f / val step⌋ + 1)
    push_cast at this
    rwa [show ((2 : ℝ) * (⌊val f / val step⌋ : ℝ) + 1) / 2 = (⌊val f / val step⌋ : ℝ) + 1 / 2 by ring] at this

/-- One feature in floating-point arithmetic. -/
theorem restored_cell_float (step f g : F) (hs : GoodDepth step) (hf : fin f) (hg : fin g) (K : ℝ) (hK0 : 0 ≤ K)
    (hK : K ≤ 2 ^ 39) (hfK : |val f| ≤ K * val step) (hn : |val g - val f| ≤ val step)
    (haf : AwayFromHalves (quantMargin F K) (val f / val step))
    (hag : AwayFromHalves (quantMargin F K) (val g / val step)) :
    quantizeOne step (restored step (bits3 step f) g) = quantizeOne step f ∧ quantizeOne step g ≠ i64Min := by
  have hS := hs.pos
  have hu := u_nonneg (F := F)
  have hgK : |val g| ≤ (K + 1) * val step := by
    have := abs_add_le (val g - val f) (val f)
    simp only [sub_add_cancel] at this
    linarith
  have hK1 : K + 1 ≤ 2 ^ 40 := by norm_num at hK ⊢; linarith
  have m1 : u F * (3 * K + 6) ≤ quantMargin F K := mul_le_mul_of_nonneg_left (by linarith) hu
  have m2 : u F * (3 * (K + 1) + 6) ≤ quantMargin F K := mul_le_mul_of_nonneg_left (by linarith) hu
  obtain ⟨qf, uf⟩ := bits_float step f hs hf K hK0 (by linarith) hfK (away_mono haf m1)
  obtain ⟨qg, ug⟩ := bits_float step g hs hg (K + 1) (by linarith) hK1 hgK (away_mono hag m2)
  have hreal := restored_cell (val step) (val f) (val g) hS (le_trans hfK
    (mul_le_mul_of_nonneg_right (by norm_num at hK ⊢; linarith) hS.le)) hn
  -- the shifted value
  have hx : |val g / val step| ≤ K + 1 := by rw [abs_div, abs_of_pos hS, div_le_iff₀ hS]; exact hgK
  have hwS := hs.omega_le
  have shift : ∀ (r : F) (z : ℤ), |(z : ℝ)| ≤ 1 → fin r →
      |val r - (val g + z * val step)| ≤ u F * (|val g + z * val step| + omega) →
      quantizeOne step r = ⌊val g / val step + z⌋ := by
    intro r z hz hr herr
    have hxz : |val g / val step + z| ≤ K + 2 := by
      have := abs_add_le (val g / val step) (z : ℝ); linarith
    refine quantizeOne_float step r hs hr (K + 2) (by linarith) (by norm_num at hK ⊢; linarith) _ hxz ?_ ?_
    · have e : (val g / val step + z) * val step = val g + z * val step := by field_simp
      rw [e]
      refine le_trans herr ?_
      rw [mul_assoc]
      apply mul_le_mul_of_nonneg_left _ hu
      have : |val g + z * val step| ≤ (K + 2) * val step := by
        rw [← e, abs_mul, abs_of_pos hS]; exact mul_le_mul_of_nonneg_right hxz hS.le
      nlinarith
    · intro k
      have := away_int (away_shift hag z) k
      refine le_trans (le_of_eq ?_) this
      unfold quantMargin; ring
  have realshift : ∀ z : ℤ, |(z : ℝ)| ≤ 1 → quantizeOne (val step) (val g + z * val step) = ⌊val g / val step + z⌋ := by
    intro z hz
    have e : (val g / val step + z) * val step = val g + z * val step := by field_simp
    have hxz : |val g / val step + z| ≤ K + 2 := by
      have := abs_add_le (val g / val step) (z : ℝ); linarith
    rw [quantizeOne_real_eq _ _ hS (by
      rw [← e, abs_mul, abs_of_pos hS]
      exact mul_le_mul_of_nonneg_right (le_trans hxz (by norm_num at hK ⊢; linarith)) hS.le)]
    congr 1
    field_simp
  have big : (K + 2) * val step ≤ 2 ^ 200 := by
    calc (K + 2) * val step ≤ 2 ^ 50 * 2 ^ 100 :=
          mul_le_mul (by norm_num at hK ⊢; linarith) hs.upper hS.le (by positivity)
      _ ≤ _ := by norm_num
  have hplus : quantizeOne step (add g step) = quantizeOne (val step) (val g + val step) := by
    obtain ⟨h1, h2⟩ := add_spec g step hg hs.fin (le_trans (by
      have := abs_add_le (val g) (val step); rw [abs_of_pos hS] at this; nlinarith) big)
    rw [shift (add g step) 1 (by simp) h1 (by simpa using h2), ← realshift 1 (by simp)]
    simp
  have hminus : quantizeOne step (sub g step) = quantizeOne (val step) (val g - val step) := by
    obtain ⟨h1, h2⟩ := sub_spec g step hg hs.fin (le_trans (by
      have := abs_sub (val g) (val step); rw [abs_of_pos hS] at this; nlinarith) big)
    rw [shift (sub g step) (-1) (by simp) h1 (by simpa [← sub_eq_add_neg] using h2), ← realshift (-1) (by simp)]
    congr 1; push_cast; ring
  have hq62 : |val g| ≤ 2 ^ 62 * val step :=
    le_trans hgK (mul_le_mul_of_nonneg_right (by norm_num at hK1 ⊢; linarith) hS.le)
  refine ⟨?_, ?_⟩
  · rw [qf, ← hreal]
    unfold restored bits3
    dsimp only
    rw [uf, ug, qf, qg]
    unfold restoreOne
    dsimp only
    split_ifs
    all_goals first
      | exact hplus
      | exact hminus
      | exact qg
  · rw [qg, quantizeOne_real_eq _ _ hS hq62]
    have h1 : |val g / val step| ≤ 2 ^ 62 := le_trans hx (by norm_num at hK1 ⊢; linarith)
    have h2 : -2 ^ 62 ≤ ⌊val g / val step⌋ := Int.le_floor.mpr (by push_cast; linarith [(abs_le.mp h1).1])
    unfold i64Min; omega

/-- C02: floating-point dequantization undoes noise of at most one step whenever the clean and the noisy values are at
least `quantMargin` steps away from cell boundaries and centres. For `ℝ` the margin is 0, for binary64 it is
`2^-53 * (3K + 12)`, where `K` bounds the clean values in steps. -/
theorem dequantization_undoes_noise_float (step : F) (hs : GoodDepth step) (K : ℝ) (hK0 : 0 ≤ K) (hK : K ≤ 2 ^ 39)
    (fs gs : List F)
    (hf : ∀ f ∈ fs, fin f ∧ |val f| ≤ K * val step ∧ AwayFromHalves (quantMargin F K) (val f / val step))
    (hg : ∀ g ∈ gs, fin g ∧ AwayFromHalves (quantMargin F K) (val g / val step))
    (hn : List.Forall₂ (fun f g => |val g - val f| ≤ val step) fs gs) :
    ∃ q p, threeBitQuantization fs step = .ok (q, p) ∧ threeBitDequantization gs p step = .ok q := by
  have hS := hs.pos
  have hlen := hn.length_eq
  have hmf : ∀ f ∈ fs, quantizeOne step f ≠ i64Min := by
    intro f hf'
    obtain ⟨a, b, c⟩ := hf f hf'
    exact (restored_cell_float step f f hs a a K hK0 hK b (by simpa using hS.le) c c).2
  have hmg : ∀ g ∈ gs, quantizeOne step g ≠ i64Min := by
    intro g hg'
    obtain ⟨i, hi, rfl⟩ := List.getElem_of_mem hg'
    have h1 := hn.get (by omega) hi
    simp only [List.get_eq_getElem] at h1
    obtain ⟨a, b, c⟩ := hf fs[i] (List.getElem_mem (by omega))
    obtain ⟨a', c'⟩ := hg gs[i] (List.getElem_mem hi)
    exact (restored_cell_float step fs[i] gs[i] hs a a' K hK0 hK b h1 c c').2
  refine ⟨_, _, threeBitQuantization_ok fs step hmf, ?_⟩
  have hpl : (fs.flatMap (bits3 step)).length = 3 * fs.length := by
    clear hn hf hlen hmf
    induction fs with
    | nil => rfl
    | cons f fs ih => rw [List.flatMap_cons, List.length_append, ih]; simp [bits3]; ring
  rw [threeBitDequantization_ok gs _ step hmg (by rw [hpl]; omega) (by rw [hpl]; omega), chunks3_bits3]
  congr 1
  clear hmg hpl hlen hmf
  induction hn with
  | nil => rfl
  | cons h _ ih =>
    rename_i f g _ _ _
    simp only [List.map_cons, List.zipWith_cons_cons, List.cons.injEq]
    obtain ⟨a, b, c⟩ := hf f (by simp)
    obtain ⟨a', c'⟩ := hg g (by simp)
    exact ⟨(restored_cell_float step f g hs a a' K hK0 hK b h c c').1, ih (fun f h => hf f (by simp [h])) (fun g h => hg g (by simp [h]))⟩

end

/-! ### binary64 instances -/

theorem ofRat_dyadic (m : ℤ) (k : ℕ) (hm : |m| ≤ 2 ^ 53) (hk : k ≤ 100) :
    F64.ofRat ((m : ℚ) / 2 ^ k) = .fin ((m : ℚ) / 2 ^ k) := by
  have h := (ofRat_spec ((m : ℚ) / 2 ^ k) (by
    push_cast
    rw [abs_div, abs_of_pos (by positivity : (0 : ℝ) < 2 ^ k)]
    have h1 : |(m : ℝ)| ≤ 2 ^ 53 := by exact_mod_cast hm
    have h2 : (1 : ℝ) ≤ 2 ^ k := one_le_pow₀ (by norm_num)
    calc |(m : ℝ)| / 2 ^ k ≤ |(m : ℝ)| := div_le_self (abs_nonneg _) h2
      _ ≤ _ := le_trans h1 (by norm_num))).1
  rw [h, rne64_dyadic m k hm hk]

/-- `x as f64` for a dyadic rational of at most 53 bits. -/
theorem quantizeOne_one_dyadic (m : ℤ) (k : ℕ) (hm : |m| ≤ 2 ^ 53) (hk : k ≤ 100) :
    quantizeOne (F64.fin 1) (F64.fin ((m : ℚ) / 2 ^ k)) = clampZ i64Min i64Max ⌊(m : ℚ) / 2 ^ k⌋ := by
  show F64.truncSat _ _ (F64.floor (F64.div (F64.fin _) (F64.fin 1))) = _
  unfold F64.div
  simp only [one_ne_zero, if_false, div_one]
  rw [ofRat_dyadic m k hm hk]
  unfold F64.floor F64.truncSat
  dsimp only
  rw [truncZ_intCast]

theorem upperHalf_one (m : ℤ) (k : ℕ) (q : ℤ) (hq : |q| ≤ 2 ^ 40) :
    upperHalf (F64.fin 1) (F64.fin ((m : ℚ) / 2 ^ k)) q = decide ((q : ℚ) + 1 / 2 ≤ (m : ℚ) / 2 ^ k) := by
  have h1 : F64.ofRat (q : ℚ) = .fin q := by
    have := ofRat_dyadic q 0 (by omega) (by omega)
    simpa using this
  have h2 : F64.ofRat (1 / 2 : ℚ) = .fin (1 / 2) := by
    have := ofRat_dyadic 1 1 (by norm_num) (by omega)
    simpa using this
  have h3 : F64.ofRat ((q : ℚ) + 1 / 2) = .fin ((q : ℚ) + 1 / 2) := by
    have hb : |2 * q + 1| ≤ 2 ^ 53 := by rw [abs_le] at hq ⊢; omega
    have := ofRat_dyadic (2 * q + 1) 1 hb (by omega)
    have e : ((2 * q + 1 : ℤ) : ℚ) / 2 ^ 1 = (q : ℚ) + 1 / 2 := by push_cast; ring
    rwa [e] at this
  show F64.ge _ (F64.mul (F64.fin 1) (F64.add (F64.ofRat q) (F64.ofRat (1 / 2)))) = _
  rw [h1, h2]
  unfold F64.add
  dsimp only
  rw [h3]
  unfold F64.mul
  dsimp only
  rw [one_mul, h3]
  unfold F64.ge
  rfl

/-- `2 - 2^-53` is a tie; it rounds to the even neighbour `2`. -/
theorem tie_rounds_up : F64.ofRat (2 - 1 / 2 ^ 53) = .fin 2 := by
  have hlog : Int.log 2 |(2 - 1 / 2 ^ 53 : ℚ)| = 0 := by
    rw [abs_of_pos (by norm_num)]
    have h1 : 0 ≤ Int.log 2 (2 - 1 / 2 ^ 53 : ℚ) := by
      rw [← Int.zpow_le_iff_le_log (by norm_num) (by norm_num)]; norm_num
    have h2 : Int.log 2 (2 - 1 / 2 ^ 53 : ℚ) < 1 := by
      rw [← Int.lt_zpow_iff_log_lt (by norm_num) (by norm_num)]; norm_num
    omega
  have hulp : ulpExp (2 - 1 / 2 ^ 53) = -52 := by
    unfold ulpExp; rw [hlog]; norm_num
  have hr : rne64 (2 - 1 / 2 ^ 53) = 2 := by
    unfold rne64
    rw [if_neg (by norm_num), hulp]
    have e : (2 - 1 / 2 ^ 53 : ℚ) / 2 ^ (-52 : ℤ) = (2 ^ 53 - 1 : ℤ) + 1 / 2 := by norm_num
    have hrne : rneInt ((2 - 1 / 2 ^ 53 : ℚ) / 2 ^ (-52 : ℤ)) = 2 ^ 53 := by
      rw [e]
      unfold rneInt
      have hfl : ⌊(((2 ^ 53 - 1 : ℤ) : ℚ) + 1 / 2)⌋ = 2 ^ 53 - 1 := by
        rw [Int.floor_eq_iff]; constructor <;> norm_num
      simp only [hfl]
      norm_num
    rw [hrne]
    norm_num
  have h := (ofRat_spec (2 - 1 / 2 ^ 53) (by norm_num [abs_le])).1
  rw [h, hr]

/-- C02, the margin is needed: in binary64 with step 1, the feature 1 and the noisy feature `1 - 2^-53` (the next
smaller double, a change of `2^-53` steps), dequantization returns cell 2 instead of cell 1. The same inputs in exact
arithmetic are covered by C01. -/
theorem dequantization_double_counterexample :
    ∃ p, threeBitQuantization [F64.fin 1] (F64.fin 1) = .ok ([1], p) ∧
      threeBitDequantization [F64.fin (1 - 1 / 2 ^ 53)] p (F64.fin 1) = .ok [2] := by
  have e1 : (1 : ℚ) = ((1 : ℤ) : ℚ) / 2 ^ 0 := by norm_num
  have e2 : (1 - 1 / 2 ^ 53 : ℚ) = ((2 ^ 53 - 1 : ℤ) : ℚ) / 2 ^ 53 := by norm_num
  have e3 : (2 : ℚ) = ((2 : ℤ) : ℚ) / 2 ^ 0 := by norm_num
  have q1 : quantizeOne (F64.fin 1) (F64.fin 1) = 1 := by
    have := quantizeOne_one_dyadic 1 0 (by norm_num) (by omega)
    rw [← e1] at this
    rw [this]; norm_num; decide
  have q2 : quantizeOne (F64.fin 1) (F64.fin 2) = 2 := by
    have := quantizeOne_one_dyadic 2 0 (by norm_num) (by omega)
    rw [← e3] at this
    rw [this]
    rw [show ⌊(2 : ℚ)⌋ = 2 from Int.floor_ofNat 2]; decide
  have q0 : quantizeOne (F64.fin 1) (F64.fin (1 - 1 / 2 ^ 53)) = 0 := by
    have := quantizeOne_one_dyadic (2 ^ 53 - 1) 53 (by norm_num) (by omega)
    rw [← e2] at this
    rw [this]
    have : ⌊(1 - 1 / 2 ^ 53 : ℚ)⌋ = 0 := by rw [Int.floor_eq_iff]; constructor <;> norm_num
    rw [this]; decide
  have u1 : upperHalf (F64.fin 1) (F64.fin 1) 1 = false := by
    have := upperHalf_one 1 0 1 (by norm_num)
    rw [← e1] at this
    rw [this]; norm_num
  refine ⟨bits3 (F64.fin 1) (F64.fin 1), ?_, ?_⟩
  · have := threeBitQuantization_ok [F64.fin 1] (F64.fin 1) (by simp [q1, i64Min])
    simpa [q1] using this
  · have h2 := threeBitDequantization_ok [F64.fin (1 - 1 / 2 ^ 53)] (bits3 (F64.fin 1) (F64.fin 1)) (F64.fin 1)
      (by intro g hg; rw [List.mem_singleton] at hg; rw [hg, q0]; decide) (by simp [bits3]) (by simp [bits3])
    rw [h2, chunks_short _ (by simp [bits3]) (by simp [bits3])]
    simp only [List.zipWith_cons_cons, List.zipWith_nil_left, List.map_cons, List.map_nil]
    have hres : restored (F64.fin 1) (bits3 (F64.fin 1) (F64.fin 1)) (F64.fin (1 - 1 / 2 ^ 53)) = F64.fin 2 := by
      unfold restored bits3
      dsimp only
      rw [q1, q0, restoreOne_cells _ _ 1 0 _ _ (by omega) (by omega), u1, if_pos (by simp)]
      show F64.add _ _ = _
      unfold F64.add
      dsimp only
      rw [show (1 - 1 / 2 ^ 53 + 1 : ℚ) = 2 - 1 / 2 ^ 53 by ring]
      exact tie_rounds_up
    rw [hres, q2]

/-- The hypotheses of C02 are met in binary64 by a feature that changes cell: `5/4 -> 3/8` with step 1. -/
example : ∃ q p, threeBitQuantization [F64.fin (5 / 4)] (F64.fin 1) = .ok (q, p) ∧
    threeBitDequantization [F64.fin (3 / 8)] p (F64.fin 1) = .ok q := by
  have odd4 : ∀ (k : ℤ), (1 : ℝ) / 4 ≤ |(5 / 4 : ℝ) - k / 2| := by
    intro k
    have : (1 : ℤ) ≤ |5 - 2 * k| := Int.one_le_abs (by omega)
    have h : (1 : ℝ) ≤ |5 - 2 * (k : ℝ)| := by exact_mod_cast this
    rw [show (5 / 4 : ℝ) - k / 2 = (5 - 2 * (k : ℝ)) / 4 by ring, abs_div, abs_of_pos (by norm_num : (0 : ℝ) < 4)]
    linarith
  have odd8 : ∀ (k : ℤ), (1 : ℝ) / 8 ≤ |(3 / 8 : ℝ) - k / 2| := by
    intro k
    have : (1 : ℤ) ≤ |3 - 4 * k| := Int.one_le_abs (by omega)
    have h : (1 : ℝ) ≤ |3 - 4 * (k : ℝ)| := by exact_mod_cast this
    rw [show (3 / 8 : ℝ) - k / 2 = (3 - 4 * (k : ℝ)) / 8 by ring, abs_div, abs_of_pos (by norm_num : (0 : ℝ) < 8)]
    linarith
  have v : ∀ x : ℚ, val (F64.fin x) = (x : ℝ) := fun _ => rfl
  have hμ : quantMargin F64 2 ≤ 1 / 8 := by
    show (1 : ℝ) / 2 ^ 53 * (3 * 2 + 12) ≤ 1 / 8
    norm_num
  refine dequantization_undoes_noise_float (F64.fin 1)
    ⟨trivial, by rw [v]; norm_num, by rw [v]; norm_num⟩ 2 (by norm_num) (by norm_num) _ _ ?_ ?_ ?_
  · intro f hf
    rw [List.mem_singleton] at hf
    subst hf
    refine ⟨trivial, by rw [v, v]; norm_num [abs_le], fun k => ?_⟩
    rw [v, v]; push_cast; rw [div_one]
    exact le_trans hμ (le_trans (by norm_num) (odd4 k))
  · intro g hg
    rw [List.mem_singleton] at hg
    subst hg
    refine ⟨trivial, fun k => ?_⟩
    rw [v, v]; push_cast; rw [div_one]
    exact le_trans hμ (odd8 k)
  · refine .cons ?_ .nil
    rw [v, v, v]; norm_num [abs_le]

end Sia
