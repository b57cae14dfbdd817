import Verif.Props.ProgramProps

/-! C83 on a concrete picture: a ramp from dark to bright, marked and authenticated by the program as it is, in every build. -/
namespace Sia
open FloatOps LawfulFloat Finset

/-- Grey level of row `i` of the ramp. -/
def rampLevel (i : Nat) : Nat := 16 + 7 * i / 16

/-- A 512 x 512 channel whose rows get brighter from 16 to 239. -/
def rampChannel : GrayImage := ⟨512, 512, (List.range (512 * 512)).map fun k => UInt8.ofNat (rampLevel (k / 512))⟩

theorem rampChannel_square : rampChannel.IsSquare 512 := ⟨rfl, rfl, by unfold rampChannel; rw [List.length_map, List.length_range]⟩

theorem rampLevel_le (i : Nat) (hi : i < 512) : 16 ≤ rampLevel i ∧ rampLevel i ≤ 239 := by unfold rampLevel; omega

theorem rampLevel_toNat (i : Nat) (hi : i < 512) : (UInt8.ofNat (rampLevel i)).toNat = rampLevel i := by
  have := rampLevel_le i hi
  rw [UInt8.toNat_ofNat']
  omega

theorem rampChannel_getD (k : Nat) (hk : k < 512 * 512) : rampChannel.raw.getD k 0 = UInt8.ofNat (rampLevel (k / 512)) := by
  unfold rampChannel
  dsimp only
  rw [List.getD_eq_getElem?_getD, List.getElem?_map, List.getElem?_range hk, Option.map_some, Option.getD_some]

theorem pixels_get_raw (c : GrayImage) (i j : Nat) : c.pixels.get i j = c.raw.getD (i * c.height + j) 0 := rfl

theorem rampChannel_get (i j : Nat) (hi : i < 512) (hj : j < 512) : (rampChannel.pixels.get i j).toNat = rampLevel i := by
  rw [pixels_get_raw, rampChannel_square.2.1, rampChannel_getD _ (by omega), show (i * 512 + j) / 512 = i by omega, rampLevel_toNat i hi]

theorem rampChannel_geometry : EmbedGeometry 512 3 rampChannel.pixels :=
  ⟨⟨rfl, rfl⟩, by decide, by decide, by decide, by decide⟩

/-- Counting pixels of a picture with constant rows. -/
theorem countP_rows (p : Nat → Bool) (m : Nat) : (List.range (m * 512)).countP (fun k => p (k / 512)) = 512 * (List.range m).countP p := by
  induction m with
  | zero => simp
  | succ m ih =>
    rw [show (m + 1) * 512 = m * 512 + 512 by ring, List.range_add, List.countP_append, ih, List.range_succ (n := m), List.countP_append,
      List.countP_map, Nat.mul_add]
    have e : (List.range 512).countP ((fun k => p (k / 512)) ∘ fun x => m * 512 + x) = (List.range 512).countP fun _ => p m := by
      apply List.countP_congr
      intro x hx
      have := List.mem_range.mp hx
      simp only [Function.comp]
      rw [show (m * 512 + x) / 512 = m by omega]
    rw [e]
    cases h : p m <;> simp [h]

theorem rampChannel_countP (p : Nat → Bool) :
    rampChannel.raw.countP (fun v => p v.toNat) = 512 * (List.range 512).countP (fun i => p (rampLevel i)) := by
  unfold rampChannel
  dsimp only
  rw [List.countP_map, ← countP_rows]
  apply List.countP_congr
  intro k hk
  have := List.mem_range.mp hk
  simp only [Function.comp]
  rw [rampLevel_toNat _ (by omega)]

theorem countP_range_le (p : Nat → Bool) (n a b : Nat) (h : ∀ i < n, p i = true → a ≤ i ∧ i < b) : (List.range n).countP p ≤ b - a := by
  have key : (List.range n).countP p ≤ min n b - min n a := by
    induction n with
    | zero => simp
    | succ n ih =>
      have h1 := ih fun i hi => h i (by omega)
      have h2 := h n (by omega)
      rw [List.range_succ, List.countP_append, List.countP_cons, List.countP_nil]
      split_ifs with hp
      · have := h2 hp
        omega
      · omega
  omega

/-- No 12 consecutive grey levels hold more than 28 of the 512 rows. -/
theorem rampChannel_windows (lo : Nat) :
    (rampChannel.raw.countP (fun v => decide (lo ≤ v.toNat ∧ v.toNat < lo + 2 * 6)) : ℝ) ≤ 28 / 512 * (((512 : ℕ) : ℝ) * ((512 : ℕ) : ℝ)) := by
  rw [rampChannel_countP (fun v => decide (lo ≤ v ∧ v < lo + 2 * 6))]
  have h := countP_range_le (fun i => decide (lo ≤ rampLevel i ∧ rampLevel i < lo + 2 * 6)) 512 ((16 * (lo - 16) + 6) / 7)
    ((16 * (lo - 16) + 6) / 7 + 28) (by
      intro i hi h
      rw [decide_eq_true_eq] at h
      unfold rampLevel at h
      omega)
  have h' : ((List.range 512).countP (fun i => decide (lo ≤ rampLevel i ∧ rampLevel i < lo + 2 * 6)) : ℝ) ≤ 28 := by
    exact_mod_cast (by omega)
  push_cast
  linarith

/-- Number of rows at most as bright as row `i`. -/
def rampRows (i : Nat) : Nat := min 512 ((16 * (7 * i / 16) + 15) / 7 + 1)

theorem countP_initial (p : Nat → Bool) (n m : Nat) (h : ∀ i < n, (p i = true ↔ i < m)) : (List.range n).countP p = min n m := by
  induction n with
  | zero => simp
  | succ n ih =>
    rw [List.range_succ, List.countP_append, ih fun i hi => h i (by omega)]
    have h1 := h n (by omega)
    by_cases hp : p n = true
    · simp only [List.countP_cons, List.countP_nil, hp, if_true]
      have := h1.1 hp
      omega
    · simp only [List.countP_cons, List.countP_nil, hp]
      have : ¬ n < m := fun h => hp (h1.2 h)
      simp
      omega

theorem rampChannel_cumulative (i : Nat) (hi : i < 512) : cumulative rampChannel.raw (UInt8.ofNat (rampLevel i)) = 512 * rampRows i := by
  unfold cumulative
  have e : (fun w : UInt8 => decide (w ≤ UInt8.ofNat (rampLevel i))) = fun w => decide (w.toNat ≤ rampLevel i) := by
    funext w
    exact decide_eq_decide.mpr (by rw [UInt8.le_iff_toNat_le, rampLevel_toNat i hi])
  rw [e, rampChannel_countP (fun v => decide (v ≤ rampLevel i)), countP_initial _ 512 ((16 * (7 * i / 16) + 15) / 7 + 1) (by
    intro k hk
    rw [decide_eq_true_eq]
    unfold rampLevel
    omega)]
  rfl

theorem level_rows : ∀ m < 513, (equalizeLevel (512 * m) (512 * 512)).toNat = 255 * m / 512 := by decide +kernel

theorem rampEqualized (M : Libm F64) (i j : Nat) (hi : i < 512) (hj : j < 512) :
    ((equalizedPixels (Deps.program M) rampChannel).get i j).toNat = 255 * rampRows i / 512 := by
  rw [equalizedPixels_program M rampChannel 512 rampChannel_square]
  have hlen : rampChannel.raw.length = 512 * 512 := rampChannel_square.2.2
  rw [List.getD_eq_getElem _ _ (by rw [equalizeSingle_length, hlen]; omega), equalizeSingle_getElem _ _ (by rw [hlen]; omega),
    ← List.getD_eq_getElem _ 0, rampChannel_getD _ (by omega), show (i * 512 + j) / 512 = i by omega, rampChannel_cumulative i hi, hlen]
  exact level_rows _ (by unfold rampRows; omega)

/-- The first moment of a picture with constant rows. -/
theorem rows_moment (image : Mat UInt8) (f : Nat → ℤ) (S : ℤ) (hS : ∑ i ∈ range 512, f i * (2 * (i : ℤ) - 511) = S) (h0 : 0 ≤ S)
    (hf : ∀ i < 512, ∀ j < 512, ((image.get i j).toNat : ℤ) = f i) :
    (S : ℝ) / (512 * 511 * (3 / 4) * (63 / 20)) ≤ ‖specMoment 512 (pixelReal image) 1 1‖ := by
  have hsum : ∑ i ∈ range 512, ∑ j ∈ range 512, ((pixelReal image i j : ℝ) : ℂ) * (starRingEnd ℂ) (zernikeV 1 1 (pixelPoint 512 i j))
      = ∑ i ∈ range 512, ∑ j ∈ range 512, (((f i : ℤ) : ℝ) : ℂ) * (starRingEnd ℂ) (pixelPoint 512 i j) := by
    refine sum_congr rfl fun i hi => sum_congr rfl fun j hj => ?_
    rw [zernikeV_one_one]
    have e : pixelReal image i j = ((f i : ℤ) : ℝ) := by
      rw [← hf i (mem_range.mp hi) j (mem_range.mp hj)]
      unfold pixelReal
      exact (Int.cast_natCast _).symm
    rw [e]
  have hre : (∑ i ∈ range 512, ∑ j ∈ range 512, (((f i : ℤ) : ℝ) : ℂ) * (starRingEnd ℂ) (pixelPoint 512 i j)).re
      = 512 * S / (Real.sqrt 2 * 511) := by
    rw [Complex.re_sum]
    simp_rw [Complex.re_sum, Complex.re_ofReal_mul, Complex.conj_re]
    unfold pixelPoint
    dsimp only
    simp only [sum_const, card_range, nsmul_eq_mul]
    have h' : (∑ i ∈ range 512, (f i : ℝ) * (2 * (i : ℝ) - 511)) = S := by exact_mod_cast hS
    have e : ∀ i ∈ range 512, ((512 : ℕ) : ℝ) * ((f i : ℝ) * ((2 * (i : ℝ) - (((512 : ℕ) : ℝ) - 1)) / (Real.sqrt 2 * (((512 : ℕ) : ℝ) - 1))))
        = ((f i : ℝ) * (2 * (i : ℝ) - 511)) * (512 / (Real.sqrt 2 * 511)) := by
      intro i _
      have e5 : ((512 : ℕ) : ℝ) - 1 = 511 := by norm_num
      have e6 : ((512 : ℕ) : ℝ) = 512 := by norm_num
      rw [e5, e6]
      ring
    refine (sum_congr rfl e).trans ?_
    have key : ∀ X : ℝ, X = S → X * (512 / (Real.sqrt 2 * 511)) = 512 * S / (Real.sqrt 2 * 511) := by
      intro X hX
      rw [hX]
      ring
    exact (sum_mul _ _ _).symm.trans (key _ h')
  unfold specMoment
  rw [hsum]
  set Z := ∑ i ∈ range 512, ∑ j ∈ range 512, (((f i : ℤ) : ℝ) : ℂ) * (starRingEnd ℂ) (pixelPoint 512 i j) with hZ
  have hn : 512 * S / (Real.sqrt 2 * 511) ≤ ‖Z‖ := by rw [← hre]; exact Complex.re_le_norm Z
  rw [norm_div, norm_mul, norm_div, norm_mul]
  have e1 : ‖((1 : ℕ) : ℂ) + 1‖ = 2 := by norm_num
  have e2 : ‖(Real.pi : ℂ)‖ = Real.pi := by rw [Complex.norm_real, Real.norm_eq_abs, abs_of_pos Real.pi_pos]
  have e3 : ‖((512 : ℕ) : ℂ)‖ = 512 := by rw [Complex.norm_natCast]; norm_num
  rw [e1, e2, e3]
  have hS0 : (0 : ℝ) ≤ S := by exact_mod_cast h0
  have h2 : Real.sqrt 2 ≤ 3 / 2 := by
    rw [Real.sqrt_le_left (by norm_num)]; norm_num
  have h2p : 0 < Real.sqrt 2 := Real.sqrt_pos.mpr (by norm_num)
  have hn2 : 512 * S / (3 / 2 * 511) ≤ ‖Z‖ := by
    refine le_trans ?_ hn
    apply div_le_div_of_nonneg_left (mul_nonneg (by norm_num) hS0) (by positivity)
    nlinarith
  have hpi : Real.pi ≤ 63 / 20 := by have := Real.pi_lt_d2; norm_num at this ⊢; linarith
  have hpp := Real.pi_pos
  calc (S : ℝ) / (512 * 511 * (3 / 4) * (63 / 20)) = 2 / (63 / 20) * (512 * S / (3 / 2 * 511)) / (512 * 512) := by ring
    _ ≤ 2 / Real.pi * (512 * S / (3 / 2 * 511)) / (512 * 512) := by
      apply div_le_div_of_nonneg_right _ (by norm_num)
      apply mul_le_mul_of_nonneg_right _ (div_nonneg (mul_nonneg (by norm_num) hS0) (by norm_num))
      exact div_le_div_of_nonneg_left (by norm_num) hpp hpi
    _ ≤ _ := by
      apply div_le_div_of_nonneg_right _ (by norm_num)
      exact mul_le_mul_of_nonneg_left hn2 (by positivity)

theorem moment_le_170 (m : Mat UInt8) : ‖specMoment 512 (pixelReal m) 1 1‖ ≤ 170 := by
  have hup := specMoment_norm_le 512 (pixelReal m) 1 1 (by norm_num) le_rfl rfl
  have hz : (∑ i ∈ range 512, ∑ j ∈ range 512, |pixelReal m i j|) / (((512 : ℕ) : ℝ) * ((512 : ℕ) : ℝ)) ≤ 255 := by
    rw [div_le_iff₀ (by norm_num)]
    refine (sum_le_sum fun i hi => sum_le_sum fun j hj => (?_ : _ ≤ (255 : ℝ))).trans (le_of_eq ?_)
    · unfold pixelReal
      rw [abs_of_nonneg (by positivity)]
      have : (m.get i j).toNat ≤ 255 := by have := (m.get i j).toNat_lt; omega
      exact_mod_cast this
    · simp only [sum_const, card_range, nsmul_eq_mul]
      ring
  have hpi := Real.pi_gt_three
  refine hup.trans ?_
  have h1 : (((1 : ℕ) : ℝ) + 1) / Real.pi ≤ 2 / 3 := by
    rw [div_le_div_iff₀ Real.pi_pos (by norm_num)]
    push_cast
    linarith
  calc _ ≤ 2 / 3 * (255 : ℝ) := mul_le_mul h1 hz (div_nonneg (sum_nonneg fun _ _ => sum_nonneg fun _ _ => abs_nonneg _) (by norm_num)) (by norm_num)
    _ = 170 := by norm_num

theorem ramp_sum : ∑ i ∈ range 512, (((255 * rampRows i / 512 : ℕ) : ℤ)) * (2 * (i : ℤ) - 511) = 11155600 := by
  decide +kernel

/-- C83 on a concrete picture: whatever mathematical library within its contract the platform has, the ramp is marked with depth 50, one
feature and step 400, and every received picture within one level of the marked one in every pixel authenticates. -/
theorem rampChannel_authenticates (M : Libm F64) (hM : M.Lawful) :
    ∃ out, watermarkChannel (Deps.program M) rampChannel (.fin 50) (.fin 400) 1 3 = .ok out ∧ out.IsSquare 512 ∧
      ∀ noisy : GrayImage, noisy.IsSquare 512 → WithinNoise 512 1 out.pixels noisy.pixels →
        authenticateChannel (Deps.program M) noisy (.fin 50) (.fin 400) 1 3 = .ok true := by
  refine program_authenticates M hM rampChannel 512 3 1 6 50 400 1 (28 / 512) rampChannel_square rampChannel_geometry le_rfl (by norm_num)
    (by decide) (by decide) (by decide) le_rfl (by norm_num) (by norm_num) (by norm_num) ?_ (by norm_num) rampChannel_windows (by norm_num)
    (by norm_num) ?_
  · intro i hi j hj
    rw [rampChannel_get i j hi hj]
    obtain ⟨h1, h2⟩ := rampLevel_le i hi
    have h1' : (16 : ℝ) ≤ rampLevel i := by exact_mod_cast h1
    have h2' : (rampLevel i : ℝ) ≤ 239 := by exact_mod_cast h2
    constructor
    · refine le_trans ?_ h1'; norm_num
    · refine le_trans h2' ?_; norm_num
  · intro k hk
    obtain rfl : k = 0 := by omega
    have hlow := rows_moment (equalizedPixels (Deps.program M) rampChannel) (fun i => ((255 * rampRows i / 512 : ℕ) : ℤ)) _ ramp_sum
      (by norm_num) (fun i hi j hj => by rw [rampEqualized M i j hi hj])
    have hup := moment_le_170 (equalizedPixels (Deps.program M) rampChannel)
    show AwayFromHalves _ (‖specMoment 512 (pixelReal (equalizedPixels (Deps.program M) rampChannel)) 1 1‖ / ((400 : ℚ) : ℝ))
    set X := ‖specMoment 512 (pixelReal (equalizedPixels (Deps.program M) rampChannel)) 1 1‖
    have hlow' : (15 : ℝ) ≤ X := le_trans (by norm_num) hlow
    have hpi := Real.pi_gt_three
    have hq : 2 * ((1 : ℕ) : ℝ) / Real.pi ≤ 2 / 3 := by
      rw [div_le_div_iff₀ Real.pi_pos (by norm_num)]
      push_cast
      linarith
    have hμ : (1 / 400 / ((400 : ℚ) : ℝ) + 1 / 2 ^ 16 + 2 * ((1 : ℕ) : ℝ) / Real.pi * (255 * (28 / 512) + 1 + 1 / 2 ^ 12) / ((400 : ℚ) : ℝ)) ≤
        15 / 400 := by
      have h1 : 2 * ((1 : ℕ) : ℝ) / Real.pi * (255 * (28 / 512) + 1 + 1 / 2 ^ 12) ≤ 2 / 3 * (255 * (28 / 512) + 1 + 1 / 2 ^ 12) :=
        mul_le_mul_of_nonneg_right hq (by norm_num)
      have h2 := div_le_div_of_nonneg_right h1 (show (0 : ℝ) ≤ ((400 : ℚ) : ℝ) by norm_num)
      norm_num at h2 ⊢
      linarith
    intro k
    refine hμ.trans ?_
    push_cast
    rcases le_or_gt k 0 with hk | hk
    · have hk' : (k : ℝ) ≤ 0 := by exact_mod_cast hk
      rw [abs_of_nonneg (by
        have : 0 ≤ X / (400 : ℝ) := by positivity
        linarith)]
      have : 15 / (400 : ℝ) ≤ X / (400 : ℝ) := by linarith
      linarith
    · have hk' : (1 : ℝ) ≤ k := by exact_mod_cast hk
      rw [abs_sub_comm, abs_of_nonneg (by linarith)]
      linarith

/-- C83, C75: in every build and on every target. -/
theorem rampChannel_every_build (M : Libm F64) (hM : M.Lawful) (hM2 : ∀ x y, M.hypot x y = .nan ∨ FloatOps.ge (M.hypot x y) (.fin 0) = true) :
    ∃ out, ∀ T : Target, T.Valid → T.watermarkChannel (Deps.program M) rampChannel (.fin 50) (.fin 400) 1 3 = .ok out ∧
      T.authenticateChannel (Deps.program M) out (.fin 50) (.fin 400) 1 3 = .ok true := by
  obtain ⟨out, h1, h2, h3⟩ := rampChannel_authenticates M hM
  refine ⟨out, fun T hT => ?_⟩
  have hs : FloatOps.ge (F64.fin 400) (.fin 0) = true := by decide +kernel
  have key : ∀ c : GrayImage, c.IsSquare 512 → FitsSquare T c.width c.height := by
    intro c hc
    rw [hc.1, hc.2.1]
    exact fits_512 T hT
  obtain ⟨_, _, a3, _⟩ := builds_agree T T hT hT _ (program_moduli M hM2) rampChannel (.fin 50) (.fin 400) hs 1 3
    (key _ rampChannel_square) (key _ rampChannel_square) (by norm_num) (by norm_num)
  obtain ⟨_, _, _, a4⟩ := builds_agree T T hT hT _ (program_moduli M hM2) out (.fin 50) (.fin 400) hs 1 3
    (key _ h2) (key _ h2) (by norm_num) (by norm_num)
  exact ⟨(a3 out).2 h1, (a4 true).2 (h3 out h2 ⟨⟨h2.1, h2.2.1⟩, fun i _ j _ => by simp⟩)⟩

end Sia
