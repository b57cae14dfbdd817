import Verif.Props.SymmetricProps
import Verif.Props.CliAuthExamples
import Verif.Props.MachineProps

/-! C86: a picture that the tool, with its actual settings, marks into itself and accepts. -/
namespace Sia
open FloatOps LawfulFloat Finset

/-- The pixels of a picture of side 512 that carries the given bits: each 8 by 8 block of the upper half has the level 53 or 47, the lower
half is the upper one turned by 180 degrees. -/
def carrierPixel (bits : List Bool) (i j : Nat) : UInt8 :=
  if bits.getD (pixelCell 512 3 (if i < 256 then i else 511 - i) (if i < 256 then j else 511 - j)) false then 53 else 47

/-- The picture that carries the given bits. -/
def carrier (bits : List Bool) : GrayImage := ⟨512, 512, (List.range (512 * 512)).map fun k => carrierPixel bits (k / 512) (k % 512)⟩

theorem carrier_square (bits : List Bool) : (carrier bits).IsSquare 512 := by
  refine ⟨rfl, rfl, ?_⟩
  unfold carrier
  rw [List.length_map, List.length_range]

theorem carrier_get (bits : List Bool) (i j : Nat) (hi : i < 512) (hj : j < 512) : (carrier bits).pixels.get i j = carrierPixel bits i j := by
  have hk : i * 512 + j < 512 * 512 := by omega
  rw [pixels_get_raw, (carrier_square bits).2.1]
  unfold carrier
  dsimp only
  rw [List.getD_eq_getElem _ _ (by rw [List.length_map, List.length_range]; exact hk), List.getElem_map, List.getElem_range]
  rw [show (i * 512 + j) / 512 = i by omega, show (i * 512 + j) % 512 = j by omega]

theorem carrierPixel_range (bits : List Bool) (i j : Nat) : 47 ≤ (carrierPixel bits i j).toNat ∧ (carrierPixel bits i j).toNat ≤ 53 := by
  unfold carrierPixel
  split_ifs <;> decide

theorem carrierPixel_upper (bits : List Bool) (i j : Nat) (hi : i < 256) :
    ((carrierPixel bits i j).toNat : ℝ) = if bits.getD (pixelCell 512 3 i j) false then 53 else 47 := by
  have e1 : (53 : UInt8).toNat = 53 := by decide
  have e2 : (47 : UInt8).toNat = 47 := by decide
  unfold carrierPixel
  simp only [if_pos hi]
  split_ifs
  · rw [e1]; norm_num
  · rw [e2]; norm_num

theorem carrier_raw_range (bits : List Bool) (v : UInt8) (hv : v ∈ (carrier bits).raw) : 47 ≤ v.toNat ∧ v.toNat ≤ 53 := by
  obtain ⟨k, hk, e⟩ := List.getElem_of_mem hv
  have hlen := (carrier_square bits).2.2
  have hk' : k < 512 * 512 := by rw [← hlen]; exact hk
  have h := carrier_get bits (k / 512) (k % 512) (by omega) (by omega)
  rw [pixels_get_raw, (carrier_square bits).2.1, show k / 512 * 512 + k % 512 = k by omega, List.getD_eq_getElem _ _ hk, e] at h
  rw [h]
  exact carrierPixel_range bits _ _

theorem grayImage_ext (a b : GrayImage) (h1 : a.width = b.width) (h2 : a.height = b.height) (h3 : a.raw = b.raw) : a = b := by
  cases a
  cases b
  simp only at h1 h2 h3
  subst h1 h2 h3
  rfl

theorem withinNoise_self (n : Nat) (t : ℝ) (ht : 0 ≤ t) (m : Mat UInt8) (h : m.IsSquare n) : WithinNoise n t m m :=
  ⟨h, fun i _ j _ => by rw [sub_self, abs_zero]; exact ht⟩

theorem carrier_symmetric (bits : List Bool) : CentrallySymmetric 512 (carrier bits) := by
  intro i hi j hj
  rw [carrier_get bits _ _ (by omega) (by omega), carrier_get bits i j hi hj]
  unfold carrierPixel
  by_cases h : i < 256
  · rw [if_neg (by omega : ¬ 512 - 1 - i < 256), if_pos h, if_neg (by omega : ¬ 512 - 1 - i < 256), if_pos h,
      show 511 - (512 - 1 - i) = i by omega, show 511 - (512 - 1 - j) = j by omega]
  · rw [if_pos (by omega : 512 - 1 - i < 256), if_neg h, if_pos (by omega : 512 - 1 - i < 256), if_neg h]

theorem carrier_blockValue (bits : List Bool) (i j : Nat) (hi : i < 256) (hj : j < 512) :
    blockValue 3 (carrier bits).pixels i j = if bits.getD (pixelCell 512 3 i j) false then 424 else 376 := by
  unfold blockValue
  have : ∀ a ∈ range (2 ^ 3), ∀ b ∈ range (2 ^ 3),
      (((carrier bits).pixels.get (i / 2 ^ 3 * 2 ^ 3 + a) (j / 2 ^ 3 * 2 ^ 3 + b)).toNat : ℝ) =
        if bits.getD (pixelCell 512 3 i j) false then 53 else 47 := by
    intro a ha b hb
    have ha' := mem_range.mp ha
    have hb' := mem_range.mp hb
    rw [carrier_get bits _ _ (by omega) (by omega)]
    rw [carrierPixel_upper bits _ _ (by omega),
      show pixelCell 512 3 (i / 2 ^ 3 * 2 ^ 3 + a) (j / 2 ^ 3 * 2 ^ 3 + b) = pixelCell 512 3 i j by unfold pixelCell; omega]
  rw [sum_congr rfl fun a ha => sum_congr rfl (this a ha)]
  simp only [sum_const, card_range, nsmul_eq_mul]
  split_ifs
  · norm_num
  · norm_num

/-- Embedding its own bits leaves the carrier as it is. -/
theorem carrier_embed (L : Ldpc) (payload record : List UInt8) (out : Mat UInt8) (hrec : dataSerialize payload = .ok record)
    (hlen : 8 * encodedLength (domainBytes 512 3) payload.length = 2048) (bits : List Bool)
    (hb : bits = bytesBits (encode L record (domainBytes 512 3)))
    (he : embed L (carrier bits).pixels payload (F64.fin 100) 3 = .ok out) :
    ∀ i < 512, ∀ j < 512, out.get i j = (carrier bits).pixels.get i j := by
  have hval : val (F64.fin 100) = 100 := by
    show (((100 : ℚ) : ℝ)) = 100
    norm_num
  have hgood : GoodDepth (F64.fin 100) := ⟨trivial, by rw [hval]; norm_num, by rw [hval]; norm_num⟩
  have hsq : (carrier bits).pixels.IsSquare 512 := ⟨rfl, rfl⟩
  have hsl := embedSlack_double 3 le_rfl
  have hs0 := embedSlack_nonneg (F := F64) 3
  intro i hi j hj
  by_cases hup : i < 256
  · obtain ⟨k, k1, k2⟩ := embed_block L 512 3 _ out payload record (F64.fin 100) (by norm_num) hsq hgood (by rw [hval]; norm_num) he
      hrec i j hi hj (by rw [hlen]; unfold pixelCell; omega)
    have k3 := k2 i hi j hj rfl rfl
    rw [carrier_blockValue bits i j hup hj, hval] at k1 k3
    rw [← hb] at k3
    have hpx : (((carrier bits).pixels.get i j).toNat : ℝ) = if bits.getD (pixelCell 512 3 i j) false then 53 else 47 := by
      rw [carrier_get bits i j hi hj, carrierPixel_upper bits i j hup]
    have hsl2 : embedSlack F64 3 ≤ 1 / 1000 := by
      norm_num at hsl ⊢
      linarith
    have hk : k = 4 := by
      have k1' := abs_le.mp k1
      have hlo : ((3 : ℤ) : ℝ) < k := by
        push_cast
        split_ifs at k1' <;> norm_num at k1' <;> linarith
      have hhi : (k : ℝ) < ((5 : ℤ) : ℝ) := by
        push_cast
        split_ifs at k1' <;> norm_num at k1' <;> linarith
      have hlo' : 3 < k := by exact_mod_cast hlo
      have hhi' : k < 5 := by exact_mod_cast hhi
      omega
    rw [hk, hpx] at k3
    have key : |((out.get i j).toNat : ℝ) - (((carrier bits).pixels.get i j).toNat : ℝ)| < 1 := by
      rw [hpx]
      have hc1 : embedSlack F64 3 * 100 / 2 ^ 3 ≤ 1 / 80 := by
        norm_num at hsl2 ⊢
        linarith
      have hc := abs_le.mp k3
      rw [abs_lt]
      unfold clampPixel signedQuarter at hc
      split_ifs at hc ⊢
      · norm_num at hc hc1 ⊢
        constructor <;> linarith
      · norm_num at hc hc1 ⊢
        constructor <;> linarith
    have h2 : |(((out.get i j).toNat : ℤ) - (((carrier bits).pixels.get i j).toNat : ℤ) : ℤ)| < 1 := by exact_mod_cast key
    have h3 := Int.abs_lt_one_iff.mp h2
    exact UInt8.toNat_inj.mp (by omega)
  · exact embed_outside L 512 3 _ out payload (F64.fin 100) (by norm_num) hsq hgood (by rw [hval]; norm_num) (by
      rw [hval]; norm_num at hsl ⊢; linarith) he i j hi hj (by rw [hlen]; unfold pixelCell; omega)

/-- What a centrally symmetric picture is marked with (11 features): cells 0, bits `110` for each of them, the signature of the cells. -/
noncomputable def symmetricWatermark : Watermark :=
  ⟨(List.replicate 11 [true, true, false]).flatten,
    Ed25519.rfc8032.sign (builtinSecret ++ builtinPublic) (vecI64ToBytes (List.replicate 11 0)), watermarkText⟩

theorem symmetricWatermark_serialize : ∃ record, symmetricWatermark.serialize = .ok record := by
  obtain ⟨record, hs, _⟩ := watermark_roundtrip symmetricWatermark
    ⟨by unfold symmetricWatermark; decide, by unfold symmetricWatermark; dsimp only; rw [Ed25519.rfc8032.sign_length]; omega,
     by unfold symmetricWatermark; dsimp only; rw [watermarkText_size]; omega⟩
  exact ⟨record, hs⟩

/-- C86: there is a picture of side 512, the same for every mathematical library, that the tool with its actual settings (depth 100,
step 1, 11 features, 3 levels) marks into itself and accepts; it also accepts every centrally symmetric picture within 2 levels of it,
and the picture after every increasing change of its levels by at most 2. -/
theorem self_marking_picture : ∃ c : GrayImage, c.IsSquare 512 ∧ CentrallySymmetric 512 c ∧ (∀ v ∈ c.raw, 47 ≤ v.toNat ∧ v.toNat ≤ 53) ∧
    ∀ M : Libm F64, M.Lawful → (∀ x y, M.hypot x y = .nan ∨ FloatOps.ge (M.hypot x y) (.fin 0) = true) →
      watermarkChannel (Deps.program M) c (.fin 100) (.fin 1) 11 3 = .ok c ∧
      authenticateChannel (Deps.program M) c (.fin 100) (.fin 1) 11 3 = .ok true ∧
      (∀ x : GrayImage, x.IsSquare 512 → CentrallySymmetric 512 x → WithinNoise 512 2 c.pixels x.pixels →
        authenticateChannel (Deps.program M) x (.fin 100) (.fin 1) 11 3 = .ok true) ∧
      (∀ p : UInt8 → UInt8, (∀ v ∈ c.raw, ∀ w ∈ c.raw, v < w → p v < p w) → (∀ v ∈ c.raw, |((p v).toNat : ℝ) - (v.toNat : ℝ)| ≤ 2) →
        authenticateChannel (Deps.program M) ⟨512, 512, c.raw.map p⟩ (.fin 100) (.fin 1) 11 3 = .ok true) := by
  obtain ⟨record, hrec⟩ := symmetricWatermark_serialize
  set bits := bytesBits (encode Ldpc.ccsds ([UInt8.ofNat (record.length % 256), UInt8.ofNat (record.length / 256)] ++ record)
    (domainBytes 512 3)) with hbits
  refine ⟨carrier bits, carrier_square bits, carrier_symmetric bits, ?_, ?_⟩
  · exact carrier_raw_range bits
  clear_value bits
  intro M hM hM2
  have hc := carrier_square bits
  have hval : val (F64.fin 100) = 100 := by
    show (((100 : ℚ) : ℝ)) = 100
    norm_num
  have hsl := embedSlack_double 3 le_rfl
  obtain ⟨fs, hf, hq⟩ := symmetric_cells M hM hM2 (carrier bits) 512 11 1 hc (carrier_symmetric bits) (by norm_num) (by norm_num)
    (by norm_num) (by norm_num) (by norm_num) (by norm_num)
  have hg : EmbedGeometry 512 3 (carrier bits).pixels := ⟨⟨hc.1, hc.2.1⟩, by decide, by decide, by decide, by decide⟩
  have hs : SignalOK 512 3 (carrier bits).pixels (F64.fin 100) 2 := by
    refine ⟨trivial, by rw [hval]; norm_num, by norm_num, ?_, ?_⟩
    · rw [hval]
      norm_num at hsl ⊢
      linarith
    · intro i hi j hj
      rw [carrier_get bits i j hi hj, hval]
      obtain ⟨b1, b2⟩ := carrierPixel_range bits i j
      have b1' : (47 : ℝ) ≤ ((carrierPixel bits i j).toNat : ℝ) := by exact_mod_cast b1
      have b2' : ((carrierPixel bits i j).toNat : ℝ) ≤ 53 := by exact_mod_cast b2
      norm_num at hsl ⊢
      constructor <;> linarith
  obtain ⟨out, e1, e2, e3⟩ := same_features_authenticate (Deps.program M) (program_actual M) (carrier bits) 512 3 11 (.fin 100) (.fin 1) 2
    hc hg hs (by decide) (by decide) (by decide) (by norm_num) fs hf _ _ hq
  have hself : out = carrier bits := by
    obtain ⟨_, _, _, _, _, fs', q', p', record', m, hf', hq', hser, hlen, he, hraw⟩ :=
      watermarkChannel_ok_only (Deps.program M) (carrier bits) out (.fin 100) (.fin 1) 11 3 e1
    rw [hf] at hf'
    obtain rfl := Except.ok.inj hf'
    rw [hq] at hq'
    obtain ⟨rfl, rfl⟩ := Prod.mk.inj (Except.ok.inj hq')
    have hrr : record' = record := by
      have : symmetricWatermark.serialize = .ok record' := hser
      rw [hrec] at this
      exact (Except.ok.inj this).symm
    subst hrr
    obtain ⟨hm1, hm2⟩ := embed_shape _ _ m record' _ 3 he
    have hmsq : m.IsSquare 512 := ⟨by rw [hm1]; exact hc.1, by rw [hm2]; exact hc.2.1⟩
    obtain ⟨r1, r2, r3⟩ := fromRaw_toList m 512 hmsq
    have hout' : out = ⟨512, 512, m.toList⟩ := by
      rw [hc.1, hc.2.1, r1] at hraw
      exact (Except.ok.inj hraw).symm
    have hd : dataSerialize record' = .ok ([UInt8.ofNat (record'.length % 256), UInt8.ofNat (record'.length / 256)] ++ record') :=
      (data_serialize_spec record').1 (by rw [hlen]; decide)
    have hget := carrier_embed _ record' _ m hd (by rw [hlen]; decide) bits hbits he
    have hpx : ∀ k < 512 * 512, out.raw.getD k 0 = (carrier bits).raw.getD k 0 := by
      intro k hk
      have h1 := hget (k / 512) (by omega) (k % 512) (by omega)
      rw [← r3 (k / 512) (by omega) (k % 512) (by omega), ← hout', pixels_get_raw, pixels_get_raw, e2.2.1, hc.2.1,
        show k / 512 * 512 + k % 512 = k by omega] at h1
      exact h1
    have hr : out.raw = (carrier bits).raw := by
      refine List.ext_getElem (by rw [e2.2.2, hc.2.2]) fun k k1 k2 => ?_
      have := hpx k (by rw [← e2.2.2]; exact k1)
      rwa [List.getD_eq_getElem _ _ k1, List.getD_eq_getElem _ _ k2] at this
    exact grayImage_ext _ _ (e2.1.trans hc.1.symm) (e2.2.1.trans hc.2.1.symm) hr
  rw [hself] at e1 e2 e3
  have hauth := e3 (carrier bits) hc (withinNoise_self 512 2 (by norm_num) _ ⟨hc.1, hc.2.1⟩) 11 fs hf hq
  refine ⟨e1, hauth, fun x hx hsym hnoise => ?_, fun p hp hpt => ?_⟩
  · obtain ⟨gs, g1, g2⟩ := symmetric_cells M hM hM2 x 512 11 1 hx hsym (by norm_num) (by norm_num) (by norm_num) (by norm_num)
      (by norm_num) (by norm_num)
    exact e3 x hx hnoise 11 gs g1 g2
  have := program_brightness M (carrier bits) 512 3 11 (.fin 100) (.fin 1) 2 hc hg hs (by decide) (by decide) (by decide) (carrier bits) e1
    p hp hpt (.fin 1) 11
  rw [hauth, hc.1, hc.2.1] at this
  exact this

theorem rgba_ext (a b : Rgba) (h1 : a.r = b.r) (h2 : a.g = b.g) (h3 : a.b = b.b) (h4 : a.a = b.a) : a = b := by
  cases a
  cases b
  simp only at h1 h2 h3 h4
  subst h1 h2 h3 h4
  rfl

/-- A picture whose planes are marked into themselves is marked into itself. -/
theorem watermark_fixed {F : Type} [FloatOps F] (D : Deps F) (image : DynamicImage) (depth step : F) (a : Nat)
    (h : ∀ s ∈ [Rgba.r, Rgba.g, Rgba.b], watermarkChannel D (image.plane s) depth step a 3 = .ok (image.plane s)) :
    ∃ out, watermark D image depth step a = .ok out ∧
      ∀ x < image.width, ∀ y < image.height, (out.pixel x y).r = (image.pixel x y).r ∧
        (image.color.hasColor = true → (out.pixel x y).g = (image.pixel x y).g ∧ (out.pixel x y).b = (image.pixel x y).b) := by
  have hr := h Rgba.r (by simp)
  have hg := h Rgba.g (by simp)
  have hb := h Rgba.b (by simp)
  have hok : ∃ out, watermark D image depth step a = .ok out := by
    unfold watermark dwtLevels
    rw [hr, ok_bind]
    split_ifs
    · rw [hg, ok_bind, hb, ok_bind]
      exact ⟨_, rfl⟩
    · exact ⟨_, rfl⟩
  obtain ⟨out, hout⟩ := hok
  refine ⟨out, hout, fun x hx y hy => ?_⟩
  obtain ⟨red, e1, e2, _, e4⟩ := watermark_channels D image out depth step a hout
  rw [hr] at e1
  obtain rfl := Except.ok.inj e1
  refine ⟨by rw [e2, plane_sample image _ x y hx hy], fun hc => ?_⟩
  obtain ⟨g, b, e5, e6, e7⟩ := e4 hc
  rw [hg] at e5
  rw [hb] at e6
  obtain rfl := Except.ok.inj e5
  obtain rfl := Except.ok.inj e6
  rw [(e7 x y).1, (e7 x y).2, plane_sample image _ x y hx hy, plane_sample image _ x y hx hy]
  exact ⟨rfl, rfl⟩

/-- C86: the same for whole pictures: there is a colour picture that the tool marks into itself, and all planes of the result
authenticate. -/
theorem self_marking_image : ∃ image : DynamicImage, image.color = .Rgb8 ∧ image.width = 512 ∧ image.height = 512 ∧
    ∀ M : Libm F64, M.Lawful → (∀ x y, M.hypot x y = .nan ∨ FloatOps.ge (M.hypot x y) (.fin 0) = true) →
      ∃ out, watermark (Deps.program M) image (.fin 100) (.fin 1) 11 = .ok out ∧
        out.color = .Rgb8 ∧ out.width = 512 ∧ out.height = 512 ∧
        (∀ x < 512, ∀ y < 512, out.pixel x y = image.pixel x y) ∧
        ∀ s ∈ [Rgba.r, Rgba.g, Rgba.b], ∀ c, IsChannel out s c →
          authenticateChannel (Deps.program M) c (.fin 100) (.fin 1) 11 3 = .ok true := by
  obtain ⟨c, hc, _, _, hM⟩ := self_marking_picture
  let image : DynamicImage := ⟨.Rgb8, 512, 512, fun x y => ⟨c.sample x y, c.sample x y, c.sample x y, 255⟩⟩
  have hpl : ∀ s ∈ [Rgba.r, Rgba.g, Rgba.b], image.plane s = c := by
    intro s hs
    refine plane_of_sample image s c hc.1.symm hc.2.1.symm (by rw [hc.2.2, hc.1, hc.2.1]) ?_
    intro x y
    simp only [List.mem_cons, List.not_mem_nil, or_false] at hs
    rcases hs with rfl | rfl | rfl <;> rfl
  refine ⟨image, rfl, rfl, rfl, fun M h1 h2 => ?_⟩
  obtain ⟨w1, w2, _⟩ := hM M h1 h2
  obtain ⟨out, ho, hpx⟩ := watermark_fixed (Deps.program M) image (.fin 100) (.fin 1) 11 (fun s hs => by rw [hpl s hs]; exact w1)
  obtain ⟨k1, k2, k3, _, k5⟩ := watermark_keeps_shape_and_alpha (Deps.program M) image out _ _ 11 ho
  have hw : out.width = 512 := k1
  have hh : out.height = 512 := k2
  have heq : ∀ x < 512, ∀ y < 512, out.pixel x y = image.pixel x y := by
    intro x hx y hy
    obtain ⟨p1, p2⟩ := hpx x hx y hy
    have p4 := k5 rfl x y
    have p2' := p2 rfl
    exact rgba_ext _ _ p1 p2'.1 p2'.2 p4
  refine ⟨out, ho, k3, hw, hh, heq, fun s hs d hd => ?_⟩
  have hd' : d = out.plane s := (isChannel_iff _ _ _).1 hd
  have hiw : image.width = 512 := rfl
  have hih : image.height = 512 := rfl
  clear_value image
  have : out.plane s = image.plane s := plane_congr out image s (hw.trans hiw.symm) (hh.trans hih.symm) (fun k hk => by
    rw [hiw, hih] at hk
    rw [hiw]
    exact congrArg s (heq (k % 512) (Nat.mod_lt _ (by norm_num)) (k / 512) (by omega)))
  rw [hd', this, hpl s hs]
  exact w2

end Sia
