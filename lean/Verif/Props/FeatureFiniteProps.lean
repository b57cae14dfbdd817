import Verif.Lemmas.FeatureWithin

/-! C79: which features are finite numbers in double precision. -/
namespace Sia
open FloatOps

/-- C79: whatever the mathematical library returns, every picture with at most as many columns as rows has exactly as many features
as asked for, in double precision. -/
theorem features_count_f64 (M : Libm F64) (image : Mat UInt8) (a : Nat) (ha : 1 ≤ a) (ha2 : a ≤ 2 ^ 51)
    (hc : image.cols ≤ image.rows) : ∃ fs, zernikeFeaturesF M image a = .ok fs ∧ fs.length = a :=
  ⟨_, featuresF_total M image a ha ha2 hc, by simp⟩

/-! Numbers that are lost stay lost. -/

theorem lost_nan : F64.Lost .nan := fun _ h => by cases h
theorem lost_inf (s : Bool) : F64.Lost (.inf s) := fun _ h => by cases h
theorem not_lost_fin (q : ℚ) : ¬ F64.Lost (.fin q) := fun h => h q rfl

theorem Lost.add_left {x : F64} (h : x.Lost) (y : F64) : (FloatOps.add x y).Lost := by
  show (F64.add x y).Lost
  cases x with
  | fin q => exact (not_lost_fin q h).elim
  | nan => cases y <;> exact lost_nan
  | inf s =>
    cases y with
    | nan => exact lost_nan
    | fin _ => exact lost_inf _
    | inf t => unfold F64.add; dsimp only; split_ifs; exacts [lost_inf _, lost_nan]

theorem Lost.add_right {y : F64} (h : y.Lost) (x : F64) : (FloatOps.add x y).Lost := by
  show (F64.add x y).Lost
  cases y with
  | fin q => exact (not_lost_fin q h).elim
  | nan => cases x <;> exact lost_nan
  | inf s =>
    cases x with
    | nan => exact lost_nan
    | fin _ => exact lost_inf _
    | inf t => unfold F64.add; dsimp only; split_ifs; exacts [lost_inf _, lost_nan]

theorem Lost.mul_left {x : F64} (h : x.Lost) (y : F64) : (FloatOps.mul x y).Lost := by
  show (F64.mul x y).Lost
  cases x with
  | fin q => exact (not_lost_fin q h).elim
  | nan => cases y <;> exact lost_nan
  | inf s =>
    cases y with
    | nan => exact lost_nan
    | inf t => exact lost_inf _
    | fin _ => unfold F64.mul; dsimp only; split_ifs; exacts [lost_nan, lost_inf _]

theorem Lost.mul_right {y : F64} (h : y.Lost) (x : F64) : (FloatOps.mul x y).Lost := by
  show (F64.mul x y).Lost
  cases y with
  | fin q => exact (not_lost_fin q h).elim
  | nan => cases x <;> exact lost_nan
  | inf s =>
    cases x with
    | nan => exact lost_nan
    | inf t => exact lost_inf _
    | fin _ => unfold F64.mul; dsimp only; split_ifs; exacts [lost_nan, lost_inf _]

theorem Lost.div_left {x : F64} (h : x.Lost) (y : F64) : (FloatOps.div x y).Lost := by
  show (F64.div x y).Lost
  cases x with
  | fin q => exact (not_lost_fin q h).elim
  | nan => cases y <;> exact lost_nan
  | inf s =>
    cases y with
    | nan => exact lost_nan
    | inf t => exact lost_nan
    | fin _ => exact lost_inf _

theorem Lost.neg {x : F64} (h : x.Lost) : (FloatOps.sub (ofInt 0) x).Lost := by
  have e : FloatOps.sub (ofInt 0) x = FloatOps.add (ofInt 0) (F64.neg x) := rfl
  rw [e]
  refine Lost.add_right ?_ _
  cases x with
  | fin q => exact (not_lost_fin q h).elim
  | nan => exact lost_nan
  | inf s => exact lost_inf _

/-! What loses a feature. -/

/-- One lost term loses the radial function. -/
theorem radialSum_lost (M : Libm F64) (n m : Nat) (r : F64) (h : (FloatOps.mul (zQuot n m 0) (zTerm M n 0 r)).Lost) (t : Nat) :
    (radialSum M n m r (t + 1)).Lost := by
  induction t with
  | zero => exact Lost.add_right (Lost.mul_right h _) _
  | succ t ih => exact Lost.add_left ih _

theorem entry_lost (M : Libm F64) (n m N i : Nat)
    (h : (FloatOps.mul (zQuot n m 0) (zTerm M n 0 (pixelPolar M N i).1)).Lost) :
    (entryValue M n m N i).1.Lost ∧ (entryValue M n m N i).2.Lost := by
  have := radialSum_lost M n m _ h ((n - m) / 2)
  exact ⟨Lost.mul_left this _, Lost.neg (Lost.mul_left this _)⟩

theorem integral_lost (e : Nat → F64 × F64) (px : Nat → UInt8) (h : (e 0).1.Lost ∧ (e 0).2.Lost) (t : Nat) :
    (integralSum e px (t + 1)).1.Lost ∧ (integralSum e px (t + 1)).2.Lost := by
  induction t with
  | zero => exact ⟨Lost.add_right (Lost.mul_left h.1 _) _, Lost.add_right (Lost.mul_left h.2 _) _⟩
  | succ t ih => exact ⟨Lost.add_left ih.1 _, Lost.add_left ih.2 _⟩

theorem moment_lost (n pixels : Nat) (s : F64 × F64) (h : s.1.Lost ∧ s.2.Lost) :
    (momentValue n pixels s).1.Lost ∧ (momentValue n pixels s).2.Lost :=
  ⟨Lost.div_left (Lost.mul_right h.1 _) _, Lost.div_left (Lost.mul_right h.2 _) _⟩

theorem factF64_huge (n : Nat) (h : 171 ≤ n) : factF64 n = .inf false := by
  induction n, h using Nat.le_induction with
  | base => decide +kernel
  | succ n hn ih =>
    unfold factF64
    rw [if_neg (by omega), ih]
    show (if (((n + 1 : ℕ) : ℚ)) = 0 then F64.nan else _) = _
    rw [if_neg (by positivity), decide_eq_false (by have : (0 : ℚ) ≤ ((n + 1 : ℕ) : ℚ) := by positivity
                                                    linarith)]
    rfl

/-- From order 171 on the first coefficient is lost. -/
theorem zQuot_lost (n m : Nat) (hn : 171 ≤ n) : (zQuot n m 0).Lost := by
  unfold zQuot
  rw [Nat.sub_zero, factF64_huge n hn]
  exact Lost.div_left (lost_inf _) _

/-- C79: a request for 86 features or more gives no finite feature at all, whatever the picture (with at least one pixel) and the
mathematical library: `171!` is infinite in double precision. -/
theorem many_features_lost (M : Libm F64) (hM : M.Special) (image : Mat UInt8) (a : Nat) (ha : 86 ≤ a) (ha2 : a ≤ 2 ^ 51)
    (hc : image.cols ≤ image.rows) (hc1 : 1 ≤ image.cols) :
    ∃ fs, zernikeFeaturesF M image a = .ok fs ∧ fs.length = a ∧ ∀ f ∈ fs, f.Lost := by
  refine ⟨_, featuresF_total M image a (by omega) ha2 hc, by simp, ?_⟩
  intro f hf
  obtain ⟨k, hk, rfl⟩ := List.mem_map.mp hf
  have hpix : 1 ≤ image.rows * image.cols := Nat.mul_pos (by omega) (by omega)
  obtain ⟨t, ht⟩ : ∃ t, image.rows * image.cols = t + 1 := ⟨_, (Nat.succ_pred_eq_of_pos hpix).symm⟩
  dsimp only
  rw [ht]
  have h := moment_lost (2 * a - 1) (t + 1) _ (integral_lost (entryValue M (2 * a - 1) (2 * k + 1) image.rows)
    (fun k => image.get (k / image.cols) (k % image.cols))
    (entry_lost M _ _ _ _ (Lost.mul_left (zQuot_lost _ _ (by omega)) _)) t)
  exact hM.hypot_lost _ _ h.1 h.2

/-- C79: a picture without pixels has no finite feature: its moments are `0 / 0`. -/
theorem empty_picture_lost (M : Libm F64) (hM : M.Special) (image : Mat UInt8) (a : Nat) (ha : 1 ≤ a) (ha2 : a ≤ 2 ^ 51)
    (hc : image.cols = 0) : ∃ fs, zernikeFeaturesF M image a = .ok fs ∧ fs.length = a ∧ ∀ f ∈ fs, f.Lost := by
  refine ⟨_, featuresF_total M image a ha ha2 (by omega), by simp, ?_⟩
  intro f hf
  obtain ⟨k, hk, rfl⟩ := List.mem_map.mp hf
  dsimp only
  rw [hc, Nat.mul_zero]
  have e : FloatOps.div (FloatOps.mul (FloatOps.div (FloatOps.add (ofInt ((2 * a - 1 : ℕ) : ℤ) : F64) (ofInt 1)) piF) (ofInt 0))
      (ofInt ((0 : ℕ) : ℤ)) = F64.nan := by
    show FloatOps.div _ (ofInt 0 : F64) = _
    rw [ofInt_zero64]
    generalize FloatOps.div (FloatOps.add (ofInt ((2 * a - 1 : ℕ) : ℤ) : F64) (ofInt 1)) piF = x
    cases x with
    | nan => rfl
    | inf s => rfl
    | fin q =>
      show F64.div (F64.ofRat (q * 0)) (.fin 0) = _
      rw [mul_zero, ofRat_self isDouble_zero]
      rfl
  refine hM.hypot_lost _ _ ?_ ?_
  · show F64.Lost (FloatOps.div _ _)
    exact e ▸ lost_nan
  · show F64.Lost (FloatOps.div _ _)
    exact e ▸ lost_nan

/-- C79: a picture of one pixel has no finite feature: its coordinates are `0 / 0`. -/
theorem single_pixel_lost (M : Libm F64) (hM : M.Special) (image : Mat UInt8) (a : Nat) (ha : 1 ≤ a) (ha2 : a ≤ 2 ^ 51)
    (hr : image.rows = 1) (hc : image.cols = 1) :
    ∃ fs, zernikeFeaturesF M image a = .ok fs ∧ fs.length = a ∧ ∀ f ∈ fs, f.Lost := by
  refine ⟨_, featuresF_total M image a ha ha2 (by omega), by simp, ?_⟩
  intro f hf
  obtain ⟨k, hk, rfl⟩ := List.mem_map.mp hf
  have e1 : (ofInt ((1 : ℕ) : ℤ) : F64) = .fin ((1 : ℕ) : ℚ) := ofInt_nat64 1 (by norm_num)
  have e1' : (ofInt 1 : F64) = .fin ((1 : ℕ) : ℚ) := e1
  have e2' : (ofInt 2 : F64) = .fin ((2 : ℕ) : ℚ) := ofInt_nat64 2 (by norm_num)
  have e0' : (ofInt ((0 : ℕ) : ℤ) : F64) = .fin ((0 : ℕ) : ℚ) := ofInt_nat64 0 (by norm_num)
  have ecoord : coordF (F64.fin ((1 : ℕ) : ℚ)) 1 = .nan := by
    unfold coordF
    rw [e1, e1', e2', add_nat64 1 1 (by norm_num)]
    have em : FloatOps.mul (F64.fin ((2 : ℕ) : ℚ)) (F64.fin ((1 : ℕ) : ℚ)) = .fin ((2 : ℕ) : ℚ) := by
      show F64.ofRat (((2 : ℕ) : ℚ) * ((1 : ℕ) : ℚ)) = _
      rw [Nat.cast_one, mul_one]
      exact ofInt_nat64 2 (by norm_num)
    rw [em, sub_nat64 2 2 le_rfl (by norm_num), sub_nat64 1 1 le_rfl (by norm_num)]
    have ez : FloatOps.mul frac1Sqrt2 (F64.fin ((0 : ℕ) : ℚ)) = .fin 0 := by
      show F64.ofRat (6369051672525773 / 9007199254740992 * ((0 : ℕ) : ℚ)) = _
      rw [Nat.cast_zero, mul_zero, ofRat_self isDouble_zero]
    show FloatOps.div (FloatOps.mul frac1Sqrt2 (F64.fin ((0 : ℕ) : ℚ))) (F64.fin ((0 : ℕ) : ℚ)) = _
    rw [ez, Nat.cast_zero]
    rfl
  have epolar : (pixelPolar M 1 0).1 = .nan := by
    have ex : FloatOps.add (FloatOps.floor (FloatOps.div (ofInt ((0 : ℕ) : ℤ)) (ofInt ((1 : ℕ) : ℤ)))) (ofInt 1) =
        F64.fin ((1 : ℕ) : ℚ) := by
      rw [e0', e1, e1']
      have ed : FloatOps.div (F64.fin ((0 : ℕ) : ℚ)) (F64.fin ((1 : ℕ) : ℚ)) = .fin 0 := by
        show F64.div _ _ = _
        unfold F64.div
        dsimp only
        rw [if_neg (by norm_num), Nat.cast_zero, zero_div, ofRat_self isDouble_zero]
      rw [ed]
      have efl : FloatOps.floor (F64.fin 0) = .fin ((0 : ℕ) : ℚ) := by
        show F64.fin ((⌊(0 : ℚ)⌋ : ℤ) : ℚ) = _
        simp
      rw [efl, add_nat64 0 1 (by norm_num)]
    unfold pixelPolar
    rw [ex, show ((0 % 1 + 1 : ℕ) : ℤ) = ((1 : ℕ) : ℤ) by norm_num, e1]
    unfold toPolarF
    dsimp only
    rw [ecoord]
    have hz : isZeroF (F64.nan) = false := by unfold isZeroF; rw [ofInt_zero64]; rfl
    rw [hz, Bool.false_and, if_neg (by simp)]
    rw [hM.powf_nan _ (by rw [e2']; intro h; cases h)]
    exact hM.sqrt_nan
  have hterm : zTerm M (2 * a - 1) 0 F64.nan = .nan := by
    unfold zTerm
    have hz : isZeroF (F64.nan) = false := by unfold isZeroF; rw [ofInt_zero64]; rfl
    rw [hz, Bool.false_and, if_neg (by simp)]
    apply hM.powf_nan
    have : ((2 * a - 1 : ℕ) : ℤ) - 2 * ((0 : ℕ) : ℤ) = ((2 * a - 1 : ℕ) : ℤ) := by simp
    rw [this, ofInt_nat64 _ (by omega)]
    intro h
    injection h with h
    have : (2 * a - 1 : ℕ) = 0 := by exact_mod_cast h
    omega
  dsimp only
  rw [hr, hc]
  have hentry := entry_lost M (2 * a - 1) (2 * k + 1) 1 0 (by
    rw [epolar, hterm]
    exact Lost.mul_right lost_nan _)
  have h := moment_lost (2 * a - 1) 1 _ (integral_lost (entryValue M (2 * a - 1) (2 * k + 1) 1)
    (fun k => image.get (k / 1) (k % 1)) hentry 0)
  exact hM.hypot_lost _ _ h.1 h.2

/-- C79: 1 to 85 features of a picture of 2 to 16384 rows with at least one and at most as many columns are all finite. -/
theorem features_finite (M : Libm F64) (hM : M.Lawful) (hS : M.Special) (image : Mat UInt8) (a : Nat) (ha : 1 ≤ a) (ha2 : a ≤ 85)
    (hr : 2 ≤ image.rows) (hr2 : image.rows ≤ 2 ^ 14) (hc : image.cols ≤ image.rows) (hc1 : 1 ≤ image.cols) :
    ∃ fs, zernikeFeaturesF M image a = .ok fs ∧ fs.length = a ∧ ∀ f ∈ fs, ∃ x : ℚ, f = .fin x := by
  refine ⟨_, featuresF_total M image a ha (by omega) hc, by simp, ?_⟩
  intro f hf
  obtain ⟨k, hk, rfl⟩ := List.mem_map.mp hf
  have hk' := List.mem_range.mp hk
  have hle : image.rows * image.cols ≤ image.rows * image.rows := Nat.mul_le_mul_left _ hc
  have hle2 : image.rows * image.rows ≤ 2 ^ 14 * 2 ^ 14 := Nat.mul_le_mul hr2 hr2
  have hpix : 1 ≤ image.rows * image.cols := Nat.mul_pos (by omega) (by omega)
  have hI := integral_within (entryValue M (2 * a - 1) (2 * k + 1) image.rows)
    (fun k => image.get (k / image.cols) (k % image.cols)) (image.rows * image.cols) (by omega)
    (fun i hi => entry_within M hM _ _ _ _ (by omega) (by omega) (by omega) hr hr2 (by omega))
  obtain ⟨⟨x, hx, bx⟩, ⟨y, hy, bY⟩⟩ := moment_within (2 * a - 1) (image.rows * image.cols) _ (by omega) hpix (by omega) hI
  dsimp only
  rw [hx, hy]
  have h500 : (2 : ℚ) ^ 400 ≤ 2 ^ 500 := pow_le_pow_right₀ (by norm_num) (by norm_num)
  exact hS.hypot_fin x y (bx.trans h500) (bY.trans h500)

/-- C79, the whole picture: with any common mathematical library, the features of a picture with at most as many columns as rows (and at
most 16384 rows) are computed, as many as asked for; they are all finite numbers if at most 85 were asked for and the picture has at
least two rows and one column, and none of them is finite otherwise. -/
theorem features_all_or_none (M : Libm F64) (hM : M.Lawful) (hS : M.Special) (image : Mat UInt8) (a : Nat) (ha : 1 ≤ a)
    (ha2 : a ≤ 2 ^ 51) (hr2 : image.rows ≤ 2 ^ 14) (hc : image.cols ≤ image.rows) :
    ∃ fs, zernikeFeaturesF M image a = .ok fs ∧ fs.length = a ∧
      (a ≤ 85 ∧ 2 ≤ image.rows ∧ 1 ≤ image.cols → ∀ f ∈ fs, ∃ x : ℚ, f = .fin x) ∧
      (¬ (a ≤ 85 ∧ 2 ≤ image.rows ∧ 1 ≤ image.cols) → ∀ f ∈ fs, f.Lost) := by
  by_cases h : a ≤ 85 ∧ 2 ≤ image.rows ∧ 1 ≤ image.cols
  · obtain ⟨fs, h1, h2, h3⟩ := features_finite M hM hS image a ha h.1 h.2.1 hr2 hc h.2.2
    exact ⟨fs, h1, h2, fun _ => h3, fun hn => absurd h hn⟩
  · have key : ∃ fs, zernikeFeaturesF M image a = .ok fs ∧ fs.length = a ∧ ∀ f ∈ fs, f.Lost := by
      rcases Nat.eq_zero_or_pos image.cols with h0 | h0
      · exact empty_picture_lost M hS image a ha ha2 h0
      · rcases Nat.lt_or_ge 85 a with h1 | h1
        · exact many_features_lost M hS image a h1 ha2 hc h0
        · exact single_pixel_lost M hS image a ha ha2 (by omega) (by omega)
    obtain ⟨fs, h1, h2, h3⟩ := key
    exact ⟨fs, h1, h2, fun hp => absurd hp h, fun _ => h3⟩

end Sia
