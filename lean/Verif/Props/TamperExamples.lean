import Verif.Props.TamperProps
import Verif.Props.TransplantProps
import Verif.Props.ProgramExamples

/-! C84 on concrete pictures: the lower half of a marked picture is painted white. -/
namespace Sia
open FloatOps LawfulFloat Finset

/-- In a 512 x 512 picture with three levels the record lies in the upper half: whatever happens to the lower half, it can be read. -/
theorem upper_half_readable (a : Nat) (ha : a ≤ 85) (t : ℝ) (marked received : Mat UInt8)
    (h : ∀ i < 256, ∀ j < 512, |((received.get i j).toNat : ℝ) - ((marked.get i j).toNat : ℝ)| ≤ t) :
    RecordReadable 512 3 a t marked received := by
  have h1 : dataBytes (domainBytes 512 3) = 128 := by decide
  have h2 : blockBytes (domainBytes 512 3) = 256 := by decide
  intro i hi damaged hd
  rw [h1] at hi
  have hi0 : i = 0 := by
    unfold recordBytes at hi
    omega
  subst hi0
  have : damaged = ∅ := by
    rw [Finset.eq_empty_iff_forall_notMem]
    intro k hk
    obtain ⟨hk1, x, hx, y, hy, e1, e2, hlt⟩ := hd k hk
    rw [h2] at hk1
    have e3 : (0 * (8 * blockBytes (domainBytes 512 3)) + k) / (512 / 2 ^ 3) < 32 := by
      rw [Nat.zero_mul, Nat.zero_add]
      omega
    have hx2 : x < 256 := by
      rw [← e1] at e3
      omega
    have := h x hx2 y hy
    linarith
  rw [this]
  simp

/-- The first moment of a picture that gets brighter from top to bottom. -/
theorem tilted_moment (image : Mat UInt8) (S : ℝ) (h0 : 0 ≤ S)
    (hS : S ≤ ∑ i ∈ range 512, ∑ j ∈ range 512, ((image.get i j).toNat : ℝ) * (2 * (i : ℝ) - 511)) :
    S / (512 * 512 * 511 * (3 / 4) * (63 / 20)) ≤ ‖specMoment 512 (pixelReal image) 1 1‖ := by
  unfold specMoment
  simp_rw [zernikeV_one_one]
  set Z := ∑ i ∈ range 512, ∑ j ∈ range 512, ((pixelReal image i j : ℝ) : ℂ) * (starRingEnd ℂ) (pixelPoint 512 i j) with hZ
  have hre : Z.re = (∑ i ∈ range 512, ∑ j ∈ range 512, ((image.get i j).toNat : ℝ) * (2 * (i : ℝ) - 511)) * (1 / (Real.sqrt 2 * 511)) := by
    rw [hZ, Complex.re_sum, sum_mul]
    refine sum_congr rfl fun i _ => ?_
    rw [Complex.re_sum, sum_mul]
    refine sum_congr rfl fun j _ => ?_
    rw [Complex.re_ofReal_mul, Complex.conj_re]
    unfold pixelPoint pixelReal
    dsimp only
    have e5 : ((512 : ℕ) : ℝ) - 1 = 511 := by norm_num
    rw [e5]
    ring
  have h2 : Real.sqrt 2 ≤ 3 / 2 := by
    rw [Real.sqrt_le_left (by norm_num)]; norm_num
  have h2p : 0 < Real.sqrt 2 := Real.sqrt_pos.mpr (by norm_num)
  have hn2 : S * (1 / (3 / 2 * 511)) ≤ ‖Z‖ := by
    refine le_trans ?_ (Complex.re_le_norm Z)
    rw [hre]
    refine mul_le_mul hS ?_ (by norm_num) (h0.trans hS)
    exact one_div_le_one_div_of_le (by positivity) (by nlinarith)
  rw [norm_div, norm_mul, norm_div, norm_mul]
  have e1 : ‖((1 : ℕ) : ℂ) + 1‖ = 2 := by norm_num
  have e2 : ‖(Real.pi : ℂ)‖ = Real.pi := by rw [Complex.norm_real, Real.norm_eq_abs, abs_of_pos Real.pi_pos]
  have e3 : ‖((512 : ℕ) : ℂ)‖ = 512 := by rw [Complex.norm_natCast]; norm_num
  rw [e1, e2, e3]
  have hpi : Real.pi ≤ 63 / 20 := by have := Real.pi_lt_d2; norm_num at this ⊢; linarith
  have hpp := Real.pi_pos
  calc S / (512 * 512 * 511 * (3 / 4) * (63 / 20)) = 2 / (63 / 20) * (S * (1 / (3 / 2 * 511))) / (512 * 512) := by ring
    _ ≤ 2 / Real.pi * (S * (1 / (3 / 2 * 511))) / (512 * 512) := by
      apply div_le_div_of_nonneg_right _ (by norm_num)
      apply mul_le_mul_of_nonneg_right _ (mul_nonneg h0 (by norm_num))
      exact div_le_div_of_nonneg_left (by norm_num) hpp hpi
    _ ≤ _ := by
      apply div_le_div_of_nonneg_right _ (by norm_num)
      exact mul_le_mul_of_nonneg_left hn2 (by positivity)

/-- The lower half of the picture has the level `v`, the upper half is darker. -/
def BrightBelow (v : UInt8) (c : GrayImage) : Prop :=
  c.IsSquare 512 ∧ (∀ i < 256, ∀ j < 512, c.pixels.get i j < v) ∧ ∀ i < 512, 256 ≤ i → ∀ j < 512, c.pixels.get i j = v

/-- The lower half of the picture is white, the upper half is not. -/
def WhiteBelow (c : GrayImage) : Prop := BrightBelow 255 c

theorem level_half : (equalizeLevel (256 * 512) (512 * 512)).toNat = 127 := by decide +kernel

theorem brightBelow_raw (v : UInt8) (c : GrayImage) (h : BrightBelow v c) (k : Nat) (hk : k < 512 * 512) :
    (k < 256 * 512 → c.raw.getD k 0 < v) ∧ (256 * 512 ≤ k → c.raw.getD k 0 = v) := by
  obtain ⟨hc, h1, h2⟩ := h
  have e : c.pixels.get (k / 512) (k % 512) = c.raw.getD k 0 := by
    rw [pixels_get_raw, hc.2.1, show k / 512 * 512 + k % 512 = k by omega]
  rw [← e]
  exact ⟨fun hlt => h1 _ (by omega) _ (by omega), fun hge => h2 _ (by omega) (by omega) _ (by omega)⟩

theorem countP_split (raw : List UInt8) (p : UInt8 → Bool) (m : Nat) (h : ∀ k < raw.length, m ≤ k → p (raw.getD k 0) = false) :
    raw.countP p ≤ m := by
  conv_lhs => rw [← List.take_append_drop m raw]
  rw [List.countP_append]
  have h1 : (raw.take m).countP p ≤ m := List.countP_le_length.trans (by simp)
  have h2 : (raw.drop m).countP p = 0 := by
    rw [List.countP_eq_zero]
    intro x hx
    obtain ⟨i, hi, rfl⟩ := List.getElem_of_mem hx
    rw [List.getElem_drop]
    rw [List.length_drop] at hi
    have := h (m + i) (by omega) (by omega)
    rw [List.getD_eq_getElem _ _ (by omega)] at this
    simp [this]
  omega

theorem brightBelow_equalized (M : Libm F64) (v : UInt8) (c : GrayImage) (h : BrightBelow v c) (i j : Nat) (hi : i < 512) (hj : j < 512) :
    (i < 256 → ((equalizedPixels (Deps.program M) c).get i j).toNat ≤ 127) ∧
      (256 ≤ i → ((equalizedPixels (Deps.program M) c).get i j).toNat = 255) := by
  have hlen : c.raw.length = 512 * 512 := h.1.2.2
  obtain ⟨r1, r2⟩ := brightBelow_raw v c h (i * 512 + j) (by omega)
  rw [equalizedPixels_program M c 512 h.1,
    List.getD_eq_getElem _ _ (by rw [equalizeSingle_length, hlen]; omega), equalizeSingle_getElem _ _ (by rw [hlen]; omega),
    ← List.getD_eq_getElem _ 0, hlen]
  constructor
  · intro hlt
    have hv := r1 (by omega)
    rw [← level_half]
    refine UInt8.le_iff_toNat_le.mp (equalizeLevel_mono _ ?_)
    unfold cumulative
    refine countP_split _ _ _ fun k hk hm => ?_
    rw [(brightBelow_raw v c h k (by omega)).2 hm, decide_eq_false_iff_not, UInt8.not_le]
    exact hv
  · intro hge
    rw [r2 (by omega)]
    have hcum : cumulative c.raw v = 512 * 512 := by
      unfold cumulative
      rw [← hlen, List.countP_eq_length]
      intro x hx
      obtain ⟨k, hk, rfl⟩ := List.getElem_of_mem hx
      rw [decide_eq_true_eq, ← List.getD_eq_getElem _ 0 hk]
      rw [hlen] at hk
      obtain ⟨b1, b2⟩ := brightBelow_raw v c h k hk
      rcases Nat.lt_or_ge k (256 * 512) with hk2 | hk2
      · exact UInt8.le_of_lt (b1 hk2)
      · rw [b2 hk2]
        exact UInt8.le_refl v
    rw [hcum, equalizeLevel_top _ (by norm_num)]
    rfl

theorem white_sum : ∑ i ∈ range 512, (if i < 256 then (127 : ℤ) else 255) * (2 * (i : ℤ) - 511) = 8388608 := by decide +kernel

/-- The first moment of a picture with a brighter lower half of one level is large. -/
theorem brightBelow_moment (M : Libm F64) (v : UInt8) (c : GrayImage) (h : BrightBelow v c) :
    (27 / 2 : ℝ) ≤ ‖specMoment 512 (pixelReal (equalizedPixels (Deps.program M) c)) 1 1‖ := by
  refine le_trans ?_ (tilted_moment _ (512 * 8388608) (by norm_num) ?_)
  · norm_num
  · have hw : ∑ i ∈ range 512, (if i < 256 then (127 : ℝ) else 255) * (2 * (i : ℝ) - 511) = 8388608 := by
      have := congrArg (Int.cast (R := ℝ)) white_sum
      rw [Int.cast_sum] at this
      refine Eq.trans (sum_congr rfl fun i _ => ?_) (this.trans (by norm_num))
      push_cast
      rfl
    rw [← hw, mul_sum]
    refine sum_le_sum fun i hi => ?_
    have hi' := mem_range.mp hi
    have key : ∀ j ∈ range 512, (if i < 256 then (127 : ℝ) else 255) * (2 * (i : ℝ) - 511) ≤
        (((equalizedPixels (Deps.program M) c).get i j).toNat : ℝ) * (2 * (i : ℝ) - 511) := by
      intro j hj
      obtain ⟨e1, e2⟩ := brightBelow_equalized M v c h i j hi' (mem_range.mp hj)
      by_cases hlt : i < 256
      · rw [if_pos hlt]
        have e3 : (((equalizedPixels (Deps.program M) c).get i j).toNat : ℝ) ≤ 127 := by exact_mod_cast e1 hlt
        have e4 : 2 * (i : ℝ) - 511 ≤ 0 := by
          have : (i : ℝ) ≤ 255 := by exact_mod_cast (by omega : i ≤ 255)
          linarith
        exact mul_le_mul_of_nonpos_right e3 e4
      · rw [if_neg hlt, e2 (by omega)]
        exact le_of_eq (by norm_num)
    have := sum_le_sum key
    rw [sum_const, card_range, nsmul_eq_mul] at this
    refine le_trans (le_of_eq ?_) this
    norm_num

/-- C84: painting the lower half white is noticed. For every 512 x 512 picture whose first moment (after equalisation) is at most 10,
marked with three levels, one feature and a step of at most 2: if the upper half is received within the noise bound and the lower half
was painted white, the answer is `true` only if the restored and the signed cells are a collision of the hash. -/
theorem painted_white_noticed (M : Libm F64) (hM : M.Lawful) (c : GrayImage) (x s : ℚ) (t : ℝ) (hc : c.IsSquare 512)
    (ht : 0 ≤ t) (hd : 2 ^ (3 + 1) * (2 * t + 1) < (1 - 1 / 2 ^ 24) * (x : ℝ))
    (hpix : ∀ i < 512, ∀ j < 512, (3 / 4 + 1 / 2 ^ 26) * (x : ℝ) / 2 ^ 3 ≤ ((c.pixels.get i j).toNat : ℝ) ∧
      ((c.pixels.get i j).toNat : ℝ) ≤ 255 - (3 / 4 + 1 / 2 ^ 26) * (x : ℝ) / 2 ^ 3)
    (hs1 : 1 / 2 ^ 20 ≤ (s : ℝ)) (hs2 : (s : ℝ) ≤ 2)
    (hsrc : ‖specMoment 512 (pixelReal (equalizedPixels (Deps.program M) c)) 1 1‖ ≤ 10) :
    ∃ out fs q p, watermarkChannel (Deps.program M) c (.fin x) (.fin s) 1 3 = .ok out ∧ out.IsSquare 512 ∧
      equalizedFeatures (Deps.program M) c 1 = .ok fs ∧ threeBitQuantization fs (.fin s) = .ok (q, p) ∧
      ∀ received : GrayImage, WhiteBelow received →
        (∀ i < 256, ∀ j < 512, |((received.pixels.get i j).toNat : ℝ) - ((out.pixels.get i j).toNat : ℝ)| ≤ t) →
        ∃ gs q' b, equalizedFeatures (Deps.program M) received 1 = .ok gs ∧ threeBitDequantization gs p (.fin s) = .ok q' ∧
          authenticateChannel (Deps.program M) received (.fin x) (.fin s) 1 3 = .ok b ∧
          (b = true → HashCollision ((Ed25519.rfc8032.sign (builtinSecret ++ builtinPublic) (vecI64ToBytes q)).take 32)
              builtinPublic (vecI64ToBytes q') (vecI64ToBytes q)) := by
  obtain ⟨out, fs, q, p, h1, h2, h3, h4, h5⟩ := program_notices M hM c 512 3 1 x s t hc
    ⟨⟨hc.1, hc.2.1⟩, by decide, by decide, by decide, by decide⟩ le_rfl (by norm_num) (by decide) (by decide) (by decide) le_rfl
    (by norm_num) ht hd hpix hs1 (hs2.trans (by norm_num))
  refine ⟨out, fs, q, p, h1, h2, h3, h4, fun received hw hnear => ?_⟩
  obtain ⟨gs, q', b, e1, e2, e3, e4⟩ := h5 received hw.1 (upper_half_readable 1 (by norm_num) t _ _ hnear)
  refine ⟨gs, q', b, e1, e2, e3, e4 ⟨0, by norm_num, ?_⟩⟩
  have hlow := brightBelow_moment M 255 received hw
  show _ < |‖specMoment 512 (pixelReal (equalizedPixels (Deps.program M) received)) 1 1‖ -
    ‖specMoment 512 (pixelReal (equalizedPixels (Deps.program M) c)) 1 1‖|
  refine lt_of_lt_of_le ?_ (le_abs_self _)
  have : (3 / 2 + 1 / 2 ^ 17) * (s : ℝ) ≤ (3 / 2 + 1 / 2 ^ 17) * 2 := mul_le_mul_of_nonneg_left hs2 (by norm_num)
  norm_num at this ⊢
  linarith

/-- A 512 x 512 picture of one level. -/
def flatChannel (v : UInt8) : GrayImage := ⟨512, 512, List.replicate (512 * 512) v⟩

theorem flatChannel_square (v : UInt8) : (flatChannel v).IsSquare 512 := ⟨rfl, rfl, by unfold flatChannel; rw [List.length_replicate]⟩

theorem plainChannel_square512 : plainChannel.IsSquare 512 := ⟨rfl, rfl, by unfold plainChannel; rw [List.length_replicate]⟩

/-- Equalisation makes a picture of one level white; its moments vanish. -/
theorem flatChannel_moment (M : Libm F64) (v : UInt8) : ‖specMoment 512 (pixelReal (equalizedPixels (Deps.program M) (flatChannel v))) 1 1‖ = 0 := by
  have hlen : (flatChannel v).raw.length = 512 * 512 := (flatChannel_square v).2.2
  have hall : ∀ i < 512, ∀ j < 512, (equalizedPixels (Deps.program M) (flatChannel v)).get i j = 255 := by
    intro i hi j hj
    rw [equalizedPixels_program M (flatChannel v) 512 (flatChannel_square v),
      List.getD_eq_getElem _ _ (by rw [equalizeSingle_length, hlen]; omega), equalizeSingle_getElem _ _ (by rw [hlen]; omega)]
    have hcum : cumulative (flatChannel v).raw ((flatChannel v).raw[i * 512 + j]'(by rw [hlen]; omega)) = (flatChannel v).raw.length := by
      unfold cumulative
      rw [List.countP_eq_length]
      intro x hx
      have hy : (flatChannel v).raw[i * 512 + j]'(by rw [hlen]; omega) ∈ (flatChannel v).raw := List.getElem_mem _
      have e : ∀ y ∈ (flatChannel v).raw, y = v := fun y hy => List.eq_of_mem_replicate hy
      rw [e x hx, e _ hy]
      exact decide_eq_true (UInt8.le_refl v)
    rw [hcum, equalizeLevel_top _ (by rw [hlen]; norm_num)]
  have hsq : (equalizedPixels (Deps.program M) (flatChannel v)).IsSquare 512 := ⟨rfl, rfl⟩
  have h1 := features_central 512 (equalizedPixels (Deps.program M) (flatChannel v)) 1 le_rfl (by norm_num) hsq
    (fun i hi j hj => by rw [hall i hi j hj, hall _ (by omega) _ (by omega)])
  rw [features_square 512 _ 1 le_rfl (by norm_num) hsq] at h1
  have h2 := Except.ok.inj h1
  have h3 := congrArg (fun l : List ℝ => l.getD 0 1) h2
  exact h3

theorem plainChannel_moment (M : Libm F64) : ‖specMoment 512 (pixelReal (equalizedPixels (Deps.program M) plainChannel)) 1 1‖ = 0 :=
  flatChannel_moment M 128

/-- C84 on a concrete picture: the plain grey picture, marked with depth 100, one feature and step 1; its lower half painted white. -/
theorem plainChannel_painted (M : Libm F64) (hM : M.Lawful) :
    ∃ out fs q p, watermarkChannel (Deps.program M) plainChannel (.fin 100) (.fin 1) 1 3 = .ok out ∧ out.IsSquare 512 ∧
      equalizedFeatures (Deps.program M) plainChannel 1 = .ok fs ∧ threeBitQuantization fs (.fin 1) = .ok (q, p) ∧
      ∀ received : GrayImage, WhiteBelow received →
        (∀ i < 256, ∀ j < 512, |((received.pixels.get i j).toNat : ℝ) - ((out.pixels.get i j).toNat : ℝ)| ≤ 2) →
        ∃ gs q' b, equalizedFeatures (Deps.program M) received 1 = .ok gs ∧ threeBitDequantization gs p (.fin 1) = .ok q' ∧
          authenticateChannel (Deps.program M) received (.fin 100) (.fin 1) 1 3 = .ok b ∧
          (b = true → HashCollision ((Ed25519.rfc8032.sign (builtinSecret ++ builtinPublic) (vecI64ToBytes q)).take 32)
              builtinPublic (vecI64ToBytes q') (vecI64ToBytes q)) := by
  refine painted_white_noticed M hM plainChannel 100 1 2 plainChannel_square512 (by norm_num) (by norm_num) ?_ (by norm_num) (by norm_num)
    (by rw [plainChannel_moment]; norm_num)
  intro i hi j hj
  rw [plainChannel_pixels i j hi hj, show (128 : UInt8).toNat = 128 from rfl]
  constructor <;> norm_num

/-- Such a received picture exists: the upper half of the marked picture, unchanged, above a white lower half. -/
theorem whiteBelow_exists (out : GrayImage) (ho : out.IsSquare 512) (h : ∀ i < 256, ∀ j < 512, out.pixels.get i j < 255) :
    ∃ received, WhiteBelow received ∧ ∀ i < 256, ∀ j < 512, received.pixels.get i j = out.pixels.get i j := by
  have hget : ∀ i < 512, ∀ j < 512, (⟨512, 512, (List.range (512 * 512)).map fun k =>
      if k < 256 * 512 then out.raw.getD k 0 else 255⟩ : GrayImage).pixels.get i j = if i < 256 then out.pixels.get i j else 255 := by
    intro i hi j hj
    rw [pixels_get_raw, pixels_get_raw, ho.2.1]
    dsimp only
    rw [List.getD_eq_getElem?_getD, List.getElem?_map, List.getElem?_range (by omega), Option.map_some, Option.getD_some]
    by_cases hlt : i < 256
    · rw [if_pos (by omega), if_pos hlt]
    · rw [if_neg (by omega), if_neg hlt]
  refine ⟨⟨512, 512, (List.range (512 * 512)).map fun k => if k < 256 * 512 then out.raw.getD k 0 else 255⟩,
    ⟨⟨rfl, rfl, by rw [List.length_map, List.length_range]⟩, ?_, ?_⟩, ?_⟩
  · intro i hi j hj
    rw [hget i (by omega) j hj, if_pos hi]
    exact h i hi j hj
  · intro i hi hge j hj
    rw [hget i hi j hj, if_neg (by omega)]
  · intro i hi j hj
    rw [hget i (by omega) j hj, if_pos hi]

end Sia
