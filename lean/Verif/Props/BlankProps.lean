import Verif.Props.EmbedProps
import Verif.Props.QuantFloatProps

/-! C25 and C46: marking and reading black images. C48: capacities that are not a multiple of the code block. -/
namespace Sia
open FloatOps LawfulFloat

/-- The all-black image of side `n`. -/
def blackImage (n : Nat) : Mat UInt8 := ⟨n, n, fun _ _ => 0⟩

section
variable {F : Type} [FloatOps F]

/-- A square domain in which every cell reads 1 is read as 0xFF bytes. -/
theorem read_all_ones (m : Mat F) (depth : F) (n : Nat) (hr : m.rows = n) (hc : m.cols = n)
    (h : ∀ i < n, ∀ j < n, readCell depth (m.get i j) = true) :
    read m depth = .ok (List.replicate (n * n / 8) 255) := by
  obtain ⟨out, e, hl, hb⟩ := read_square m depth n hr hc
  rw [e]
  congr 1
  rw [← hl]
  apply List.ext_getElem?
  intro k
  by_cases hk : k < out.length
  · rw [List.getElem?_replicate, if_pos hk, List.getElem?_eq_getElem hk]
    congr 1
    apply UInt8.toNat_inj.mp
    apply Nat.eq_of_testBit_eq
    intro i
    by_cases hi : i < 8
    · have h1 := bytesBits_getElem? out k i hi
      rw [List.getElem?_eq_getElem hk, hb (8 * k + i) (by omega)] at h1
      obtain ⟨a1, a2⟩ := addr_lt n (8 * k + i) (by omega)
      rw [h _ a1 _ a2] at h1
      simp only [Option.map_some, Option.some.injEq] at h1
      rw [← h1]
      have : i = 0 ∨ i = 1 ∨ i = 2 ∨ i = 3 ∨ i = 4 ∨ i = 5 ∨ i = 6 ∨ i = 7 := by omega
      rcases this with rfl | rfl | rfl | rfl | rfl | rfl | rfl | rfl <;> decide
    · have h256 : (2 : Nat) ^ 8 ≤ 2 ^ i := Nat.pow_le_pow_right (by omega) (by omega)
      have b1 := (out[k]).toNat_lt
      rw [Nat.testBit_lt_two_pow (by omega), Nat.testBit_lt_two_pow (by
        have : (255 : UInt8).toNat = 255 := rfl
        omega)]
  · rw [List.getElem?_eq_none (by omega), List.getElem?_eq_none (by simp; omega)]

/-- If the arithmetic keeps a zero fixed, the transform of a zero matrix is zero. -/
theorem fwdN_zero (z : F) (hz : ∀ p, butterfly p z z = z) (R C : Nat) : ∀ k, fwdN R C k (fun _ _ => z) = fun _ _ => z := by
  intro k
  induction k with
  | zero => rfl
  | succ k ih =>
    show stepT false _ _ (fwdN R C k fun _ _ => z) = _
    rw [ih]
    funext i j
    unfold stepT
    rw [colPass_eq]
    simp only [rowPass_eq, hz, ite_self]

/-- Reading a black image gives 0xFF bytes. -/
theorem extract_black_eq (L : Ldpc) (n levels : Nat) (depth : F) (h1 : 1 ≤ levels) (hL : levels ≤ 30) (hd : 2 ^ levels ∣ n)
    (hz : ∀ p, butterfly p (pixelToFloat 0 : F) (pixelToFloat 0) = pixelToFloat 0)
    (hread : readCell depth (pixelToFloat 0 : F) = true) :
    extract L (blackImage n) depth levels =
      if 9 ≤ domainBytes n levels then
        (decode L (List.replicate (domainBytes n levels) 255) (domainBytes n levels)).bind dataDeserialize
      else .error .capacityBelowMinimum := by
  rw [extract_forward L (blackImage n) depth levels n ⟨rfl, rfl⟩ h1 hL hd, getDomainCapacity_eq]
  have hc : (coeffs n levels (blackImage n) : Nat → Nat → F) = fun _ _ => pixelToFloat 0 :=
    fwdN_zero (pixelToFloat 0) hz n n levels
  rw [read_all_ones _ depth (n / 2 ^ levels) rfl rfl (by intro i _ j _; rw [hc]; exact hread)]
  unfold domainBytes
  simp only [bind, Except.bind]
  split_ifs <;> rfl

/-- C46, for any arithmetic that keeps zero fixed. -/
theorem extract_black_aborts_of (L : Ldpc) (n levels : Nat) (depth : F) (h1 : 1 ≤ levels) (hL : levels ≤ 30)
    (hd : 2 ^ levels ∣ n) (hz : ∀ p, butterfly p (pixelToFloat 0 : F) (pixelToFloat 0) = pixelToFloat 0)
    (hread : readCell depth (pixelToFloat 0 : F) = true) (hsup : ¬ SupportedCapacity (domainBytes n levels)) :
    ∃ e, extract L (blackImage n) depth levels = .error e := by
  rw [extract_black_eq L n levels depth h1 hL hd hz hread]
  split_ifs with h9
  · have hcap : domainBytes n levels < 1024 := by
      by_contra h; exact hsup (by unfold SupportedCapacity; omega)
    have hdec : decode L (List.replicate (domainBytes n levels) 255) (domainBytes n levels) =
        .ok (List.replicate (domainBytes n levels) 255) := by
      unfold decode
      rw [unsupported_spec _ hsup]
    rw [hdec]
    simp only [Except.bind]
    cases hx : dataDeserialize (List.replicate (domainBytes n levels) 255) with
    | error e => exact ⟨e, rfl⟩
    | ok payload =>
      exfalso
      obtain ⟨a, b, r, e, _, hle, _⟩ := (data_parse_spec _ _).mp hx
      have hl := congrArg List.length e
      simp only [List.length_replicate, List.length_cons] at hl
      have ha : a = 255 := List.eq_of_mem_replicate (n := domainBytes n levels) (by rw [e]; simp)
      have hb : b = 255 := List.eq_of_mem_replicate (n := domainBytes n levels) (by rw [e]; simp)
      subst ha hb
      have e1 : (255 : UInt8).toNat = 255 := rfl
      rw [e1] at hle
      omega
  · exact ⟨_, rfl⟩

/-- C48: if the capacity of a square domain is supported but not a multiple of the code block, extraction aborts on every
image of that size, marked or not, at every depth, in every arithmetic, whatever the LDPC library does. -/
theorem extract_misaligned_aborts (L : Ldpc) (n levels : Nat) (image : Mat UInt8) (depth : F) (hsq : image.IsSquare n)
    (h1 : 1 ≤ levels) (hL : levels ≤ 30) (hd : 2 ^ levels ∣ n) (hsup : SupportedCapacity (domainBytes n levels))
    (hmis : ¬ blockBytes (domainBytes n levels) ∣ domainBytes n levels) :
    ∃ e, extract L image depth levels = .error e := by
  rw [extract_forward L image depth levels n hsq h1 hL hd, getDomainCapacity_eq]
  obtain ⟨out, e, hl, _⟩ := read_square (⟨n / 2 ^ levels, n / 2 ^ levels, coeffs n levels image⟩ : Mat F) depth
    (n / 2 ^ levels) rfl rfl
  rw [e]
  have h9 : 9 ≤ n / 2 ^ levels * (n / 2 ^ levels) / 8 := by
    change SupportedCapacity (n / 2 ^ levels * (n / 2 ^ levels) / 8) at hsup
    unfold SupportedCapacity at hsup; omega
  obtain ⟨e', he'⟩ := decode_aborts L out (domainBytes n levels) hsup (Or.inl (by rw [hl]; exact hmis))
  refine ⟨e', ?_⟩
  simp only [bind, Except.bind]
  rw [if_pos h9]
  dsimp only
  have : decode L out (n / 2 ^ levels * (n / 2 ^ levels) / 8) = .error e' := he'
  rw [this]

/-- C48: at such a capacity embed accepts payloads (here: every payload of at most 508 bytes, at 1024 bytes or more) that
can never be extracted again. -/
theorem embed_accepts_misaligned (L : Ldpc) (n levels : Nat) (image : Mat UInt8) (payload : List UInt8) (depth : F)
    (hn : 0 < n) (hsq : image.IsSquare n) (h1 : 1 ≤ levels) (hL : levels ≤ 30) (hd : 2 ^ levels ∣ n)
    (hcap : 1024 ≤ domainBytes n levels) (hmis : ¬ 1024 ∣ domainBytes n levels) (hp : payload.length ≤ 508) :
    ∃ out, embed L image payload depth levels = .ok out ∧
      ∀ noisy : Mat UInt8, noisy.IsSquare n → ∃ e, extract L noisy depth levels = .error e := by
  have hsup : SupportedCapacity (domainBytes n levels) := by unfold SupportedCapacity; omega
  have hbb : dataBytes (domainBytes n levels) = 512 := by
    unfold dataBytes; split_ifs <;> omega
  obtain ⟨out, ho⟩ := (embed_succeeds_iff L n levels image payload depth hn hsq).mpr ⟨h1, hL, hd, by omega, by omega, by
    unfold encodedLength blockBytes
    rw [if_pos hsup, hbb]
    have : (payload.length + 4 + 512 - 1) / 512 ≤ 1 := by omega
    calc _ ≤ 1 * (2 * 512) := Nat.mul_le_mul_right _ this
      _ ≤ _ := hcap⟩
  exact ⟨out, ho, fun noisy hsq' => extract_misaligned_aborts L n levels noisy depth hsq' h1 hL hd hsup (by
    unfold blockBytes; rw [hbb]; exact hmis)⟩

end

/-- A 1000 x 1000 image at three levels: 100 bytes are embedded without complaint; no image of that size can be read. -/
example (image : Mat UInt8) (hsq : image.IsSquare 1000) :
    ∃ out, embed Ldpc.toy image (List.replicate 100 7) (F64.fin 60) 3 = .ok out ∧
      ∀ noisy : Mat UInt8, noisy.IsSquare 1000 → ∃ e, extract Ldpc.toy noisy (F64.fin 60) 3 = .error e :=
  embed_accepts_misaligned Ldpc.toy 1000 3 image _ _ (by norm_num) hsq (by norm_num) (by norm_num) (by norm_num)
    (by decide) (by decide) (by simp)

/-! ### C46 -/

theorem roundAway_zero {K : Type} [Field K] [LinearOrder K] [IsStrictOrderedRing K] [FloorRing K] : roundAway (0 : K) = 0 := by
  unfold roundAway
  rw [if_pos le_rfl, Int.floor_eq_zero_iff]
  constructor <;> norm_num

/-- C46, exact arithmetic. -/
theorem extract_black_aborts (L : Ldpc) (n levels : Nat) (depth : ℝ) (h1 : 1 ≤ levels) (hL : levels ≤ 30)
    (hd : 2 ^ levels ∣ n) (hdepth : 0 < depth) (hsup : ¬ SupportedCapacity (domainBytes n levels)) :
    ∃ e, extract L (blackImage n) depth levels = .error e := by
  have hz : (pixelToFloat 0 : ℝ) = 0 := by
    show (((0 : UInt8).toNat : ℤ) : ℝ) = 0; simp
  refine extract_black_aborts_of L n levels depth h1 hL hd ?_ ?_ hsup
  · intro p; rw [hz, butterfly_real]; ring
  · rw [hz, readCell_real, zero_div, roundAway_zero]; simp

theorem F64.ofRat_zero : F64.ofRat 0 = .fin 0 := by
  have := ofRat_dyadic 0 0 (by norm_num) (by norm_num)
  simpa using this

/-- C46, IEEE binary64, every finite positive depth. -/
theorem extract_black_aborts_double (L : Ldpc) (n levels : Nat) (x : ℚ) (h1 : 1 ≤ levels) (hL : levels ≤ 30)
    (hd : 2 ^ levels ∣ n) (hx : 0 < x) (hsup : ¬ SupportedCapacity (domainBytes n levels)) :
    ∃ e, extract L (blackImage n) (F64.fin x) levels = .error e := by
  have hz : (pixelToFloat 0 : F64) = .fin 0 := by
    have e : (((0 : UInt8).toNat : ℤ) : ℚ) = 0 := by simp
    have e2 : ∀ k : ℤ, (FloatOps.ofInt k : F64) = F64.ofRat (k : ℚ) := fun _ => rfl
    unfold pixelToFloat
    rw [e2, e]
    exact F64.ofRat_zero
  have hm : ∀ c : ℚ, F64.mul (.fin c) (.fin 0) = .fin 0 := by
    intro c; show F64.ofRat (c * 0) = _; rw [mul_zero]; exact F64.ofRat_zero
  refine extract_black_aborts_of L n levels (F64.fin x) h1 hL hd ?_ ?_ hsup
  · intro p
    rw [hz]
    unfold butterfly
    have e1 : FloatOps.mul (FloatOps.frac1Sqrt2 : F64) (F64.fin 0) = F64.fin 0 := hm _
    rw [e1]
    have e2 : FloatOps.add (F64.fin 0) (F64.fin 0) = F64.fin 0 := by
      show F64.ofRat (0 + 0) = _; rw [add_zero]; exact F64.ofRat_zero
    have e3 : FloatOps.sub (F64.fin 0) (F64.fin 0) = F64.fin 0 := by
      show F64.ofRat (0 + -0) = _; rw [neg_zero, add_zero]; exact F64.ofRat_zero
    rw [e2, e3, ite_self]
  · rw [hz]
    unfold readCell
    have e1 : FloatOps.div (F64.fin 0) (F64.fin x) = F64.fin 0 := by
      show (if x = 0 then _ else F64.ofRat (0 / x)) = _
      rw [if_neg hx.ne', zero_div]; exact F64.ofRat_zero
    have e2 : FloatOps.round (F64.fin 0) = F64.fin 0 := by
      show F64.fin ((roundAway (0 : ℚ) : ℤ) : ℚ) = _
      rw [roundAway_zero]; rfl
    have e3 : FloatOps.mul (F64.fin x) (F64.fin 0) = F64.fin 0 := hm _
    have e4 : FloatOps.sub (F64.fin 0) (F64.fin 0) = F64.fin 0 := by
      show F64.ofRat (0 + -0) = _; rw [neg_zero, add_zero]; exact F64.ofRat_zero
    have e5 : (FloatOps.ofInt 0 : F64) = F64.fin 0 := by
      show F64.ofRat ((0 : ℤ) : ℚ) = _
      rw [Int.cast_zero]; exact F64.ofRat_zero
    rw [e1, e2, e3, e4, e5]
    rfl

/-- 256 x 256 images at three levels (128 bytes is supported, so take 240 x 240: 112 bytes). -/
example : ∃ e, extract Ldpc.toy (blackImage 240) (F64.fin 60) 3 = .error e :=
  extract_black_aborts_double Ldpc.toy 240 3 60 (by norm_num) (by norm_num) (by norm_num) (by norm_num) (by decide)

/-! ### C25 -/

/-- In exact arithmetic the image before rounding is the source plus the change of its cell, spread evenly. -/
theorem spatial_real (image : Mat UInt8) (n levels : Nat) (hdv : 2 ^ levels ∣ n) (depth : ℝ) (bits : List Bool) :
    spatial n levels image depth bits = target n levels image depth bits := by
  have hco : (coeffs n levels image : Nat → Nat → ℝ) = fwdN n n levels (pix image) := by
    unfold coeffs pix
    congr 1
  rw [← target_eq image n levels hdv depth bits]
  unfold spatial
  congr 1
  funext i j
  unfold change
  rw [hco]
  show written n levels image depth bits i j = _
  split_ifs with hc
  · show _ = _ + ((written n levels image depth bits i j : ℝ) - fwdN n n levels (pix image) i j)
    ring
  · unfold written
    rw [if_neg (by tauto), hco]; ring

/-- Reading a cell whose block consists of equal pixels `r`. -/
theorem flat_cell_reads_one (depth : ℝ) (hd : 0 < depth) (c : ℝ) (h0 : 0 ≤ c) (h1 : c / depth < 1 / 2) :
    readCell depth c = true := by
  rw [readCell_real, roundAway_eq (c / depth) 0 (by
    rw [Int.cast_zero, sub_zero, abs_of_nonneg (div_nonneg h0 hd.le)]; exact h1)]
  simpa using h0

/-- The pixel written for any bit into a black block leaves a coefficient below half a depth. -/
theorem black_pixel_small (levels : Nat) (depth : ℝ) (hd : 0 < depth) (hne : depth ≠ 2 ^ (levels + 1)) (x : ℝ)
    (hx : x ≤ 1 / 4 * depth / 2 ^ levels) : 2 ^ levels * ((floatToPixel x : UInt8).toNat : ℝ) / depth < 1 / 2 := by
  have h2 : (0 : ℝ) < 2 ^ levels := by positivity
  have hv : ((floatToPixel x : UInt8).toNat : ℝ) = ((clampZ 0 255 (roundAway x) : ℤ) : ℝ) := by
    exact_mod_cast floatToPixel_val x trivial
  rw [hv, div_lt_iff₀ hd]
  rcases lt_or_ge x (1 / 2) with hs | hs
  · -- rounds to at most 0
    have hr : roundAway x ≤ 0 := by
      unfold roundAway
      split_ifs with h
      · have : ⌊x + 1 / 2⌋ < 1 := by rw [Int.floor_lt]; push_cast; linarith
        omega
      · rw [Int.ceil_le]; push_cast; linarith [not_le.mp h]
    have : clampZ 0 255 (roundAway x) = 0 := by unfold clampZ; split_ifs <;> omega
    rw [this]
    simp
    linarith
  · have hr : ((roundAway x : ℤ) : ℝ) ≤ x + 1 / 2 := by
      have := abs_le.mp (roundAway_err x); linarith
    have hc : ((clampZ 0 255 (roundAway x) : ℤ) : ℝ) ≤ ((roundAway x : ℤ) : ℝ) := by
      have h0 : 0 ≤ roundAway x := by
        unfold roundAway; rw [if_pos (by linarith)]; exact Int.floor_nonneg.mpr (by linarith)
      have : clampZ 0 255 (roundAway x) ≤ roundAway x := by unfold clampZ; split_ifs <;> omega
      exact_mod_cast this
    have hx' : x * 2 ^ levels ≤ 1 / 4 * depth := by rwa [le_div_iff₀ h2] at hx
    have hlarge : (2 : ℝ) ^ (levels + 1) ≤ depth := by
      rw [pow_succ]
      nlinarith
    have hlt : (2 : ℝ) ^ (levels + 1) < depth := lt_of_le_of_ne hlarge (Ne.symm hne)
    rw [pow_succ] at hlt
    nlinarith

/-- C25: in exact arithmetic, for every depth except `2^(levels+1)`, whatever payload was embedded into the black image,
what is read back is all ones. -/
theorem black_reads_ones (L : Ldpc) (n levels : Nat) (hn : 0 < n) (payload : List UInt8) (depth : ℝ) (hd : 0 < depth)
    (hne : depth ≠ 2 ^ (levels + 1)) (out : Mat UInt8) (h : embed L (blackImage n) payload depth levels = .ok out) :
    extract L out depth levels =
      (decode L (List.replicate (domainBytes n levels) 255) (domainBytes n levels)).bind dataDeserialize := by
  have hsq : (blackImage n).IsSquare n := ⟨rfl, rfl⟩
  obtain ⟨a1, a2, a3, a4, a5, a6, a7⟩ := embed_ok_only L (blackImage n) out payload depth levels hn hn h
  have hrec := (data_serialize_spec payload).1 a5
  rw [embed_ok L (blackImage n) payload depth levels n hsq a1 a2 a3 _ hrec a6 (a7 _ hrec)] at h
  cases h
  generalize bytesBits (encode L _ _) = bits
  have h2 : (0 : ℝ) < 2 ^ levels := by positivity
  set out : Mat UInt8 := ⟨n, n, fun i j => floatToPixel (spatial n levels (blackImage n) depth bits i j)⟩ with hout
  have hosq : out.IsSquare n := ⟨rfl, rfl⟩
  have hco0 : (coeffs n levels (blackImage n) : Nat → Nat → ℝ) = fun _ _ => 0 := by
    have hz : (pixelToFloat 0 : ℝ) = 0 := by show (((0 : UInt8).toNat : ℤ) : ℝ) = 0; simp
    have := fwdN_zero (pixelToFloat 0 : ℝ) (by intro p; rw [hz, butterfly_real]; ring) n n levels
    rw [hz] at this
    unfold coeffs blackImage
    simp only [hz]
    exact this
  -- every pixel before rounding is at most a quarter depth spread over the block, and constant on the block
  have hpx : ∀ i j, spatial n levels (blackImage n) depth bits i j =
      change n levels (blackImage n) depth bits (i / 2 ^ levels) (j / 2 ^ levels) / 2 ^ levels := by
    intro i j
    rw [spatial_real _ n levels a3]
    unfold target pix blackImage
    simp
  have hch : ∀ p q, change n levels (blackImage n) depth bits p q ≤ 1 / 4 * depth := by
    intro p q
    unfold change
    split_ifs with hc
    · show (written n levels (blackImage n) depth bits p q : ℝ) - coeffs n levels (blackImage n) p q ≤ _
      unfold written
      rw [hco0]
      split_ifs with hb
      · rw [writeCell_real]
        simp only [zero_div, sub_zero]
        rw [roundAway_zero]
        unfold quarter
        split_ifs <;> norm_num <;> linarith
      · rw [sub_self]; positivity
    · positivity
  have hcell : ∀ p < n / 2 ^ levels, ∀ q < n / 2 ^ levels,
      readCell depth (coeffs n levels out p q : ℝ) = true := by
    intro p hp q hq
    have hlow : (coeffs n levels out p q : ℝ) = blockSum (2 ^ levels) (pix out) p q / 2 ^ levels := by
      have := fwdN_lowLow n n levels a3 a3 (pix out) levels le_rfl p hp q hq
      rw [← this]
      rfl
    have hconst : ∀ a < 2 ^ levels, ∀ b < 2 ^ levels, pix out (p * 2 ^ levels + a) (q * 2 ^ levels + b) =
        ((floatToPixel (change n levels (blackImage n) depth bits p q / 2 ^ levels)).toNat : ℝ) := by
      intro a ha b hb
      unfold pix
      rw [hout]
      dsimp only
      rw [hpx, (block_index a3 hp ha).2, (block_index a3 hq hb).2]
    have hsum : blockSum (2 ^ levels) (pix out) p q / 2 ^ levels =
        2 ^ levels * ((floatToPixel (change n levels (blackImage n) depth bits p q / 2 ^ levels)).toNat : ℝ) := by
      unfold blockSum
      rw [Finset.sum_congr rfl (fun a ha => Finset.sum_congr rfl (fun b hb =>
        hconst a (Finset.mem_range.mp ha) b (Finset.mem_range.mp hb)))]
      simp only [Finset.sum_const, Finset.card_range, nsmul_eq_mul]
      push_cast
      have h2' := h2.ne'
      field_simp
    rw [hlow, hsum]
    apply flat_cell_reads_one depth hd _ (by positivity)
    exact black_pixel_small levels depth hd hne _ (div_le_div_of_nonneg_right (hch p q) h2.le)
  show extract L out depth levels = _
  rw [extract_forward L out depth levels n hosq a1 a2 a3, getDomainCapacity_eq, read_all_ones _ depth (n / 2 ^ levels) rfl rfl hcell]
  have h9 : 9 ≤ n / 2 ^ levels * (n / 2 ^ levels) / 8 := a6
  unfold domainBytes
  simp only [bind, Except.bind]
  rw [if_pos h9]

/-- C25: of all payloads accepted for the black image, at most one can ever be extracted; all others are lost. -/
theorem black_image_loses (L : Ldpc) (n levels : Nat) (hn : 0 < n) (depth : ℝ) (hd : 0 < depth)
    (hne : depth ≠ 2 ^ (levels + 1)) (p₁ p₂ : List UInt8) (hp : p₁ ≠ p₂) (out₁ out₂ : Mat UInt8)
    (h₁ : embed L (blackImage n) p₁ depth levels = .ok out₁) (h₂ : embed L (blackImage n) p₂ depth levels = .ok out₂) :
    extract L out₁ depth levels = extract L out₂ depth levels ∧
      (extract L out₁ depth levels ≠ .ok p₁ ∨ extract L out₂ depth levels ≠ .ok p₂) := by
  have e1 := black_reads_ones L n levels hn p₁ depth hd hne out₁ h₁
  have e2 := black_reads_ones L n levels hn p₂ depth hd hne out₂ h₂
  refine ⟨e1.trans e2.symm, ?_⟩
  by_contra hc
  push Not at hc
  obtain ⟨c1, c2⟩ := hc
  rw [e1] at c1
  rw [e2, c1] at c2
  exact hp (by cases c2; rfl)

/-- C25: for every such depth there is an accepted payload that is not extracted (512 x 512, three levels). -/
theorem black_image_counterexample (L : Ldpc) (depth : ℝ) (hd : 0 < depth) (hne : depth ≠ 16) :
    ∃ payload out, embed L (blackImage 512) payload depth 3 = .ok out ∧ extract L out depth 3 ≠ .ok payload := by
  have acc : ∀ b : UInt8, ∃ out, embed L (blackImage 512) [b] depth 3 = .ok out := fun b =>
    (embed_succeeds_iff L 512 3 (blackImage 512) [b] depth (by norm_num) ⟨rfl, rfl⟩).mpr
      ⟨by norm_num, by norm_num, by norm_num, by simp, by decide, by
        rw [List.length_singleton]; decide⟩
  obtain ⟨o1, h1⟩ := acc 0
  obtain ⟨o2, h2⟩ := acc 1
  obtain ⟨_, h | h⟩ := black_image_loses L 512 3 (by norm_num) depth hd (by norm_num; exact hne) [0] [1] (by decide) o1 o2 h1 h2
  · exact ⟨_, _, h1, h⟩
  · exact ⟨_, _, h2, h⟩

end Sia
