import Verif.Props.EmbedProps
import Verif.Props.DistortionProps
import Verif.Spec.LocalitySpec

/-! C85: where a mark goes and what it does to a block. -/
namespace Sia
open FloatOps LawfulFloat Finset

variable {F : Type} [FloatOps F] [LawfulFloat F]

/-- A value within less than a half of a pixel level is rounded to it. -/
theorem floatToPixel_eq (x : F) (hx : fin x) (p : UInt8) (h : |val x - (p.toNat : ℝ)| < 1 / 2) : floatToPixel x = p := by
  have hp := p.toNat_lt
  have h0 : (0 : ℝ) ≤ (p.toNat : ℝ) := by positivity
  have h1 : ((p.toNat : ℕ) : ℝ) ≤ 255 := by exact_mod_cast (by omega : p.toNat ≤ 255)
  have hd := floatToPixel_dist x hx (p.toNat : ℝ) |val x - (p.toNat : ℝ)| h0 h1 le_rfl
  have hlt : |((floatToPixel x).toNat : ℝ) - (p.toNat : ℝ)| < 1 := by linarith
  have h2 : |(((floatToPixel x).toNat : ℤ) - (p.toNat : ℤ) : ℤ)| < 1 := by exact_mod_cast hlt
  have h3 := Int.abs_lt_one_iff.mp h2
  exact UInt8.toNat_inj.mp (by omega)

theorem clampZ_clamp (z : ℤ) : ((clampZ 0 255 z : ℤ) : ℝ) = clampPixel z := by
  unfold clampZ clampPixel
  split_ifs with h1 h2
  · have : (z : ℝ) < 0 := by exact_mod_cast h1
    rw [min_eq_right (by linarith), max_eq_left (by linarith)]
    norm_num
  · have : (255 : ℝ) < z := by exact_mod_cast h2
    rw [min_eq_left (by linarith), max_eq_right (by norm_num)]
    norm_num
  · have a : (0 : ℝ) ≤ z := by exact_mod_cast (by omega : (0 : ℤ) ≤ z)
    have b : (z : ℝ) ≤ 255 := by exact_mod_cast (by omega : z ≤ 255)
    rw [min_eq_right b, max_eq_right a]

theorem clampPixel_dist (x y : ℝ) : |clampPixel x - clampPixel y| ≤ |x - y| := by
  unfold clampPixel
  refine le_trans (abs_max_sub_max_le_max _ _ _ _) ?_
  rw [sub_self, abs_zero]
  refine max_le (abs_nonneg _) (le_trans (abs_min_sub_min_le_max _ _ _ _) ?_)
  rw [sub_self, abs_zero]
  exact max_le (abs_nonneg _) le_rfl

/-- Rounding into the range of pixels: within a half of the clamped value. -/
theorem floatToPixel_clamp (x : F) (hx : fin x) (y e : ℝ) (h : |val x - y| ≤ e) :
    |((floatToPixel x).toNat : ℝ) - clampPixel y| ≤ 1 / 2 + e := by
  have e1 : ((floatToPixel x).toNat : ℝ) = clampPixel (roundAway (val x) : ℤ) := by
    rw [← clampZ_clamp, ← floatToPixel_val x hx]
    norm_cast
  rw [e1]
  refine le_trans (clampPixel_dist _ _) ?_
  have h2 := roundAway_err (val x)
  have h3 := abs_add_le ((roundAway (val x) : ℝ) - val x) (val x - y)
  rw [sub_add_sub_cancel] at h3
  linarith

theorem fwdN_blockValue (n levels : Nat) (image : Mat UInt8) (hdv : 2 ^ levels ∣ n) (i j : Nat) (hi : i < n) (hj : j < n) :
    fwdN n n levels (pix image) (i / 2 ^ levels) (j / 2 ^ levels) = blockValue levels image i j := by
  have hpos : 0 < 2 ^ levels := Nat.two_pow_pos _
  rw [fwdN_lowLow n n levels hdv hdv _ levels le_rfl _ ?_ _ ?_]
  · rfl
  · exact Nat.div_lt_of_lt_mul (by rw [Nat.mul_div_cancel' hdv]; exact hi)
  · exact Nat.div_lt_of_lt_mul (by rw [Nat.mul_div_cancel' hdv]; exact hj)

/-- C85: the blocks that come after the encoded record are left exactly as they were, for every picture, saturated or not, as long
as the rounding errors of the transforms are below half a level. -/
theorem embed_outside (L : Ldpc) (n levels : Nat) (image out : Mat UInt8) (payload : List UInt8) (depth : F)
    (hn : 0 < n) (hsq : image.IsSquare n) (hd : GoodDepth depth) (hd1 : 1 ≤ val depth)
    (hs : embedSlack F levels * val depth < 2 ^ levels / 2)
    (h : embed L image payload depth levels = .ok out) (i j : Nat) (hi : i < n) (hj : j < n)
    (ho : 8 * encodedLength (domainBytes n levels) payload.length ≤ pixelCell n levels i j) :
    out.get i j = image.get i j := by
  obtain ⟨a1, a2, a3, a4, a5, a6, a7⟩ := embed_ok_only L image out payload depth levels (by rw [hsq.1]; exact hn)
    (by rw [hsq.2]; exact hn) h
  rw [hsq.1, hsq.2] at a6 a7
  rw [hsq.1] at a3
  have hrec := (data_serialize_spec payload).1 a5
  have hlen := encode_record_length L payload _ hrec (domainBytes n levels)
  rw [embed_ok L image payload depth levels n hsq a1 a2 a3 _ hrec a6 (a7 _ hrec)] at h
  cases h
  unfold domainBytes at hlen ho
  rw [← hlen, ← bytesBits_length] at ho
  dsimp only
  generalize bytesBits (encode L _ _) = bits at ho ⊢
  obtain ⟨sf, se⟩ := spatial_near image n levels a2 a3 depth hd hd1 bits i j hi hj
  obtain ⟨_, s2⟩ := slack_bounds (F := F) levels a1 (val depth) hd1
  have hch : change n levels image depth bits (i / 2 ^ levels) (j / 2 ^ levels) = 0 := by
    unfold change written
    unfold pixelCell at ho
    split_ifs with g1 g2
    · omega
    · ring
    · rfl
  have h2L : (0 : ℝ) < 2 ^ levels := by positivity
  have hu := u_nonneg (F := F)
  have hD := hd.pos
  have hmag0 : 0 ≤ magF levels := by unfold magF; positivity
  apply floatToPixel_eq _ sf
  unfold target at se
  rw [hch, zero_div, add_zero] at se
  refine lt_of_le_of_lt se ?_
  have : 0 ≤ u F * (3 * magF levels + 7) * val depth := by positivity
  have h3 : 2 ^ levels * errB F levels (val depth) < 2 ^ levels / 2 := by linarith
  have h4 : 2 ^ levels * errB F levels (val depth) < 2 ^ levels * (1 / 2) := by linarith
  exact lt_of_mul_lt_mul_left h4 h2L.le

/-- As `embed_block` below, with the number that is rounded to the new pixel; `k` depends on the picture and the depth only. -/
theorem embed_block_round (L : Ldpc) (n levels : Nat) (image out : Mat UInt8) (payload record : List UInt8) (depth : F)
    (hn : 0 < n) (hsq : image.IsSquare n) (hd : GoodDepth depth) (hd1 : 1 ≤ val depth)
    (h : embed L image payload depth levels = .ok out) (hrec : dataSerialize payload = .ok record)
    (i j : Nat) (hi : i < n) (hj : j < n)
    (ho : pixelCell n levels i j < 8 * encodedLength (domainBytes n levels) payload.length)
    (k : ℤ) (hk : k = roundAway (val (div (coeffs n levels image (i / 2 ^ levels) (j / 2 ^ levels)) depth))) :
    |(k : ℝ) - blockValue levels image i j / val depth| ≤ 1 / 2 + embedSlack F levels ∧
      ∀ x < n, ∀ y < n, x / 2 ^ levels = i / 2 ^ levels → y / 2 ^ levels = j / 2 ^ levels →
        ∃ v : ℝ, ((out.get x y).toNat : ℤ) = clampZ 0 255 (roundAway v) ∧ |v - (((image.get x y).toNat : ℝ) +
          (val depth * (k + signedQuarter ((bytesBits (encode L record (domainBytes n levels))).getD (pixelCell n levels i j) false)) -
            blockValue levels image i j) / 2 ^ levels)| ≤ embedSlack F levels * val depth / 2 ^ levels := by
  obtain ⟨a1, a2, a3, a4, a5, a6, a7⟩ := embed_ok_only L image out payload depth levels (by rw [hsq.1]; exact hn)
    (by rw [hsq.2]; exact hn) h
  rw [hsq.1, hsq.2] at a6 a7
  rw [hsq.1] at a3
  have hlen := encode_record_length L payload _ hrec (domainBytes n levels)
  rw [embed_ok L image payload depth levels n hsq a1 a2 a3 _ hrec a6 (a7 _ hrec)] at h
  cases h
  unfold domainBytes at hlen ho ⊢
  rw [← hlen, ← bytesBits_length] at ho
  dsimp only
  generalize bytesBits (encode L _ _) = bits at ho ⊢
  have hp : i / 2 ^ levels < n / 2 ^ levels := Nat.div_lt_of_lt_mul (by rw [Nat.mul_div_cancel' a3]; exact hi)
  have hq : j / 2 ^ levels < n / 2 ^ levels := Nat.div_lt_of_lt_mul (by rw [Nat.mul_div_cancel' a3]; exact hj)
  have hle : n / 2 ^ levels ≤ n := Nat.div_le_self _ _
  obtain ⟨s1, _⟩ := slack_bounds (F := F) levels a1 (val depth) hd1
  have h2L : (0 : ℝ) < 2 ^ levels := by positivity
  have hu := u_nonneg (F := F)
  have hD := hd.pos
  have hmag0 : 0 ≤ magF levels := by unfold magF; positivity
  obtain ⟨_, p2⟩ := pow_facts levels a2
  have hmag : magF levels ≤ 2 ^ 45 := by unfold magF; norm_num at p2 ⊢; linarith
  obtain ⟨c1, c2, c3⟩ := coeffs_near (F := F) image n levels a2 a3 (i / 2 ^ levels) (by omega) (j / 2 ^ levels) (by omega)
  rw [fwdN_blockValue n levels image a3 i j hi hj] at c2
  obtain ⟨k1, k2, k3, k4⟩ := writeCell_round depth (coeffs n levels image (i / 2 ^ levels) (j / 2 ^ levels)) hd
    (bits.getD (pixelCell n levels i j) false) c1 (magF levels) hmag0 (by norm_num at hmag ⊢; linarith)
    (le_trans c3 (le_mul_of_one_le_right hmag0 hd1)) k hk
  have herrF : 0 ≤ errF F levels := by unfold errF; positivity
  have herrB : 0 ≤ errB F levels (val depth) := by unfold errB; positivity
  have hmd : 0 ≤ u F * magF levels * val depth := by positivity
  have hud : 0 ≤ u F * val depth := by positivity
  have hB2 : 0 ≤ 2 ^ levels * errB F levels (val depth) := by positivity
  set S := blockValue levels image i j with hS
  set C := val (coeffs n levels image (i / 2 ^ levels) (j / 2 ^ levels) : F) with hC
  refine ⟨?_, ?_⟩
  · have e : |C / val depth - S / val depth| ≤ errF F levels / val depth := by
      rw [← sub_div, abs_div, abs_of_pos hD]
      exact div_le_div_of_nonneg_right c2 hD.le
    have e2 := abs_add_le ((k : ℝ) - C / val depth) (C / val depth - S / val depth)
    rw [sub_add_sub_cancel] at e2
    have e3 : errF F levels / val depth + u F * (magF levels + 1) ≤ embedSlack F levels := by
      have : errF F levels / val depth + u F * (magF levels + 1) =
        (errF F levels + u F * (magF levels + 1) * val depth) / val depth := by field_simp
      rw [this, div_le_iff₀ hD]
      linarith
    linarith
  · intro x hx y hy hxi hyj
    obtain ⟨sf, se⟩ := spatial_near image n levels a2 a3 depth hd hd1 bits x y hx hy
    have hch : change n levels image depth bits (i / 2 ^ levels) (j / 2 ^ levels) =
        val (writeCell depth (bits.getD (pixelCell n levels i j) false)
          (coeffs n levels image (i / 2 ^ levels) (j / 2 ^ levels))) - C := by
      unfold change written
      unfold pixelCell at ho
      rw [if_pos ⟨hp, hq⟩, if_pos ⟨hp, hq, ho⟩]
      rfl
    set W := val (writeCell depth (bits.getD (pixelCell n levels i j) false)
          (coeffs n levels image (i / 2 ^ levels) (j / 2 ^ levels))) with hW
    have hq' : quarter (bits.getD (pixelCell n levels i j) false) = signedQuarter (bits.getD (pixelCell n levels i j) false) := rfl
    rw [hq'] at k4
    set T := val depth * (k + signedQuarter (bits.getD (pixelCell n levels i j) false)) with hT
    unfold target at se
    rw [hxi, hyj, hch] at se
    refine ⟨_, floatToPixel_val _ sf, le_trans (b := errB F levels (val depth) +
      (u F * (2 * magF levels + 6) * val depth + errF F levels) / 2 ^ levels) ?_ ?_⟩
    · have e : val (spatial n levels image depth bits x y) - (((image.get x y).toNat : ℝ) + (T - S) / 2 ^ levels) =
          (val (spatial n levels image depth bits x y) - (pix image x y + (W - C) / 2 ^ levels)) +
            ((W - T) - (C - S)) / 2 ^ levels := by
        unfold pix
        ring
      rw [e]
      refine le_trans (abs_add_le _ _) (add_le_add se ?_)
      rw [abs_div, abs_of_pos h2L]
      refine div_le_div_of_nonneg_right (le_trans (abs_sub _ _) ?_) h2L.le
      linarith
    · have : errB F levels (val depth) + (u F * (2 * magF levels + 6) * val depth + errF F levels) / 2 ^ levels =
        (2 ^ levels * errB F levels (val depth) + u F * (2 * magF levels + 6) * val depth + errF F levels) / 2 ^ levels := by
        field_simp
        ring
      rw [this]
      have : (2 ^ levels * errB F levels (val depth) + u F * (2 * magF levels + 6) * val depth + errF F levels) / 2 ^ levels ≤
          embedSlack F levels * val depth / 2 ^ levels := div_le_div_of_nonneg_right (by linarith) h2L.le
      linarith

/-- As `embed_block` below, with the number that is rounded to the new pixel. -/
theorem embed_block_raw (L : Ldpc) (n levels : Nat) (image out : Mat UInt8) (payload record : List UInt8) (depth : F)
    (hn : 0 < n) (hsq : image.IsSquare n) (hd : GoodDepth depth) (hd1 : 1 ≤ val depth)
    (h : embed L image payload depth levels = .ok out) (hrec : dataSerialize payload = .ok record)
    (i j : Nat) (hi : i < n) (hj : j < n)
    (ho : pixelCell n levels i j < 8 * encodedLength (domainBytes n levels) payload.length) :
    ∃ k : ℤ, |(k : ℝ) - blockValue levels image i j / val depth| ≤ 1 / 2 + embedSlack F levels ∧
      ∀ x < n, ∀ y < n, x / 2 ^ levels = i / 2 ^ levels → y / 2 ^ levels = j / 2 ^ levels →
        ∃ v : ℝ, ((out.get x y).toNat : ℤ) = clampZ 0 255 (roundAway v) ∧ |v - (((image.get x y).toNat : ℝ) +
          (val depth * (k + signedQuarter ((bytesBits (encode L record (domainBytes n levels))).getD (pixelCell n levels i j) false)) -
            blockValue levels image i j) / 2 ^ levels)| ≤ embedSlack F levels * val depth / 2 ^ levels :=
  ⟨_, embed_block_round L n levels image out payload record depth hn hsq hd hd1 h hrec i j hi hj ho _ rfl⟩

/-- C85: what writing the bit of a block does: with `S` the sum of the block's pixels divided by its side, there is a nearest integer
`k` of `S / depth` such that every pixel of the block is moved by `(depth * (k ± 1/4) - S)` divided by the side, rounded and kept
between 0 and 255. The sign is the bit's. -/
theorem embed_block (L : Ldpc) (n levels : Nat) (image out : Mat UInt8) (payload record : List UInt8) (depth : F)
    (hn : 0 < n) (hsq : image.IsSquare n) (hd : GoodDepth depth) (hd1 : 1 ≤ val depth)
    (h : embed L image payload depth levels = .ok out) (hrec : dataSerialize payload = .ok record)
    (i j : Nat) (hi : i < n) (hj : j < n)
    (ho : pixelCell n levels i j < 8 * encodedLength (domainBytes n levels) payload.length) :
    ∃ k : ℤ, |(k : ℝ) - blockValue levels image i j / val depth| ≤ 1 / 2 + embedSlack F levels ∧
      ∀ x < n, ∀ y < n, x / 2 ^ levels = i / 2 ^ levels → y / 2 ^ levels = j / 2 ^ levels →
        |((out.get x y).toNat : ℝ) - clampPixel (((image.get x y).toNat : ℝ) +
          (val depth * (k + signedQuarter ((bytesBits (encode L record (domainBytes n levels))).getD (pixelCell n levels i j) false)) -
            blockValue levels image i j) / 2 ^ levels)| ≤ 1 / 2 + embedSlack F levels * val depth / 2 ^ levels := by
  obtain ⟨k, k1, k2⟩ := embed_block_raw L n levels image out payload record depth hn hsq hd hd1 h hrec i j hi hj ho
  refine ⟨k, k1, fun x hx y hy hxi hyj => ?_⟩
  obtain ⟨v, v1, v2⟩ := k2 x hx y hy hxi hyj
  have e1 : ((out.get x y).toNat : ℝ) = clampPixel (roundAway v : ℤ) := by
    rw [← clampZ_clamp, ← v1]
    norm_cast
  rw [e1]
  refine le_trans (clampPixel_dist _ _) ?_
  have h2 := roundAway_err v
  have h3 := abs_add_le ((roundAway v : ℝ) - v) (v - (((image.get x y).toNat : ℝ) +
          (val depth * (k + signedQuarter ((bytesBits (encode L record (domainBytes n levels))).getD (pixelCell n levels i j) false)) -
            blockValue levels image i j) / 2 ^ levels))
  rw [sub_add_sub_cancel] at h3
  linarith

/-- C85 for channels: the blocks after the encoded record keep their pixels. -/
theorem watermarkChannel_outside (D : Deps F) (c out : GrayImage) (n levels a : Nat) (depth step : F) (hn : 0 < n)
    (hc : c.IsSquare n) (hd : GoodDepth depth) (hd1 : 1 ≤ val depth) (hs : embedSlack F levels * val depth < 2 ^ levels / 2)
    (h : watermarkChannel D c depth step a levels = .ok out) (i j : Nat) (hi : i < n) (hj : j < n)
    (ho : 8 * encodedLength (domainBytes n levels) (recordBytes a) ≤ pixelCell n levels i j) :
    out.pixels.get i j = c.pixels.get i j := by
  obtain ⟨_, _, _, _, _, fs, q, p', record, m, hf, hq, hser, hlen, he, hraw⟩ := watermarkChannel_ok_only D c out depth step a levels h
  obtain ⟨hm1, hm2⟩ := embed_shape D.ldpc c.pixels m record depth levels he
  have hmsq : m.IsSquare n := ⟨by rw [hm1]; exact hc.1, by rw [hm2]; exact hc.2.1⟩
  obtain ⟨r1, r2, r3⟩ := fromRaw_toList m n hmsq
  have hout' : out = ⟨n, n, m.toList⟩ := by
    rw [hc.1, hc.2.1, r1] at hraw
    exact (Except.ok.inj hraw).symm
  have e : out.pixels.get i j = m.get i j := by
    rw [hout']
    exact r3 i hi j hj
  rw [e]
  exact embed_outside D.ldpc n levels c.pixels m record depth hn ⟨hc.1, hc.2.1⟩ hd hd1 hs he i j hi hj (by rw [hlen]; exact ho)

/-- C85 for whole square images: every sample of a pixel in a block after the encoded record is the source's. -/
theorem watermark_outside (D : Deps F) (image out : DynamicImage) (n a : Nat) (depth step : F) (hn : 0 < n)
    (hw : image.width = n) (hh : image.height = n) (hd : GoodDepth depth) (hd1 : 1 ≤ val depth) (hd2 : val depth ≤ 2 ^ 27)
    (h : watermark D image depth step a = .ok out) (x y : Nat) (hx : x < n) (hy : y < n)
    (ho : 8 * encodedLength (domainBytes n 3) (recordBytes a) ≤ pixelCell n 3 y x) :
    (out.pixel x y).r = (image.pixel x y).r ∧
      (image.color.hasColor = true → (out.pixel x y).g = (image.pixel x y).g ∧ (out.pixel x y).b = (image.pixel x y).b) ∧
      (image.color.hasAlpha = true → (out.pixel x y).a = (image.pixel x y).a) := by
  obtain ⟨_, _, _, hal, _⟩ := watermark_keeps_shape_and_alpha D image out depth step a h
  obtain ⟨r, e1, e2, _, e4⟩ := watermark_channels D image out depth step a h
  have hslack : embedSlack F 3 ≤ 1 / 2 ^ 26 := by
    have h1 := u_le (F := F)
    unfold embedSlack
    have : u F * (2 ^ 15 * ((3 : ℕ) : ℝ) * (81 / 8) ^ 3) ≤ 1 / 2 ^ 53 * (2 ^ 15 * ((3 : ℕ) : ℝ) * (81 / 8) ^ 3) :=
      mul_le_mul_of_nonneg_right h1 (by positivity)
    refine this.trans ?_
    norm_num
  have hs : embedSlack F 3 * val depth < 2 ^ 3 / 2 := by
    have : embedSlack F 3 * val depth ≤ 1 / 2 ^ 26 * 2 ^ 27 := mul_le_mul hslack hd2 (by linarith) (by norm_num)
    refine lt_of_le_of_lt this (by norm_num)
  have key : ∀ (s : Rgba → UInt8) (c : GrayImage), watermarkChannel D (image.plane s) depth step a 3 = .ok c →
      c.sample x y = s (image.pixel x y) := by
    intro s c hcs
    have hsq := plane_isSquare image n hw hh s
    have g1 := watermarkChannel_isSquare D (image.plane s) c n depth step a 3 hsq hcs
    have := watermarkChannel_outside D (image.plane s) c n 3 a depth step hn hsq hd hd1 hs hcs y x hy hx ho
    rwa [← sample_pixels c n x y g1, ← sample_pixels _ n x y hsq, plane_sample image s x y (by omega) (by omega)] at this
  refine ⟨?_, ?_, ?_⟩
  · rw [e2]; exact key Rgba.r r e1
  · intro hcol
    obtain ⟨g, b, e5, e6, e7⟩ := e4 hcol
    rw [(e7 x y).1, (e7 x y).2]
    exact ⟨key Rgba.g g e5, key Rgba.b b e6⟩
  · intro ha
    exact hal ha x (by omega) y (by omega)

/-- C85: in a 512 x 512 picture (three levels, every amount of features that watermarking accepts) only the upper half
is ever changed. -/
theorem lower_half_kept (D : Deps F) (image out : DynamicImage) (a : Nat) (depth step : F)
    (hw : image.width = 512) (hh : image.height = 512) (hd : GoodDepth depth) (hd1 : 1 ≤ val depth) (hd2 : val depth ≤ 2 ^ 27)
    (h : watermark D image depth step a = .ok out) (x y : Nat) (hx : x < 512) (hy : y < 512) (hlow : 256 ≤ y) :
    (out.pixel x y).r = (image.pixel x y).r ∧
      (image.color.hasColor = true → (out.pixel x y).g = (image.pixel x y).g ∧ (out.pixel x y).b = (image.pixel x y).b) ∧
      (image.color.hasAlpha = true → (out.pixel x y).a = (image.pixel x y).a) := by
  refine watermark_outside D image out 512 a depth step (by norm_num) hw hh hd hd1 hd2 h x y hx hy ?_
  have ha : a ≤ 85 := by
    obtain ⟨r, e1, _⟩ := watermark_channels D image out depth step a h
    exact (watermarkChannel_ok_only D _ r depth step a 3 e1).2.2.1
  have h0 : SupportedCapacity (domainBytes 512 3) := by decide
  have h1 : dataBytes (domainBytes 512 3) = 128 := by decide
  have h2 : blockBytes (domainBytes 512 3) = 256 := by decide
  unfold encodedLength
  rw [if_pos h0, h1, h2]
  have : (recordBytes a + 4 + 128 - 1) / 128 ≤ 1 := by
    unfold recordBytes
    omega
  unfold pixelCell
  omega

end Sia
