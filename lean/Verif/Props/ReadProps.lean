import Verif.Props.CarrierProps

/-! C87: what is read from a picture, however it came about. -/
namespace Sia
open FloatOps LawfulFloat Finset

section
variable {F : Type} [FloatOps F] [LawfulFloat F]

/-- A cell whose block carries a bit is read as that bit. -/
theorem carried_cell (n levels : Nat) (image : Mat UInt8) (depth : F) (hg : EmbedGeometry n levels image) (hd : GoodDepth depth)
    (hd1 : 1 ≤ val depth) (bits : List Bool) (hcar : Carries n levels image (val depth) (embedSlack F levels) bits)
    (o : Nat) (ho : o < bits.length) (hb : bits.length ≤ (n / 2 ^ levels) * (n / 2 ^ levels)) :
    readCell depth (coeffs n levels image (o / (n / 2 ^ levels)) (o % (n / 2 ^ levels)) : F) = bits.getD o false := by
  obtain ⟨p1, p2⟩ := pow_facts levels hg.levels_le
  have hu := u_nonneg (F := F)
  have hmag0 : 0 ≤ magF levels := by unfold magF; positivity
  have hmag : magF levels ≤ 2 ^ 45 := by unfold magF; norm_num at p2 ⊢; linarith
  obtain ⟨s1, s2⟩ := slack_bounds (F := F) levels hg.levels_pos (val depth) hd1
  have hD := hd.pos
  have hpos : 0 < 2 ^ levels := Nat.two_pow_pos _
  have hle : n / 2 ^ levels ≤ n := Nat.div_le_self _ _
  obtain ⟨a1, a2⟩ := addr_lt (n / 2 ^ levels) o (by omega)
  have hmul : n / 2 ^ levels * 2 ^ levels = n := Nat.div_mul_cancel hg.divisible
  have hin : ∀ p, p < n / 2 ^ levels → p * 2 ^ levels < n := by
    intro p hp
    calc p * 2 ^ levels < n / 2 ^ levels * 2 ^ levels := Nat.mul_lt_mul_of_pos_right hp hpos
      _ = n := hmul
  have e : o / (n / 2 ^ levels) * (n / 2 ^ levels) + o % (n / 2 ^ levels) = o := by
    rw [mul_comm]; exact Nat.div_add_mod _ _
  generalize hp : o / (n / 2 ^ levels) = p at a1 e ⊢
  generalize hq : o % (n / 2 ^ levels) = q at a2 e ⊢
  have hcell : pixelCell n levels (p * 2 ^ levels) (q * 2 ^ levels) = o := by
    unfold pixelCell
    rw [Nat.mul_div_cancel _ hpos, Nat.mul_div_cancel _ hpos, e]
  obtain ⟨k, hk⟩ := hcar _ (hin p a1) _ (hin q a2) (by rw [hcell]; exact ho)
  rw [hcell, ← fwdN_blockValue n levels image hg.divisible _ _ (hin p a1) (hin q a2), Nat.mul_div_cancel _ hpos,
    Nat.mul_div_cancel _ hpos] at hk
  obtain ⟨c1, c2, c3⟩ := coeffs_near (F := F) image n levels hg.levels_le hg.divisible p (by omega) q (by omega)
  refine readCell_spec depth _ hd _ c1 (magF levels) hmag0 (le_trans hmag (by norm_num)) (le_trans c3 (le_mul_of_one_le_right hmag0 hd1)) k ?_
  have hquarter : quarter (bits.getD o false) = signedQuarter (bits.getD o false) := rfl
  rw [hquarter]
  set A := val (coeffs n levels image p q : F)
  set B := fwdN n n levels (pix image) p q
  set T := val depth * ((k : ℝ) + signedQuarter (bits.getD o false))
  have t1 : |A - T| ≤ |A - B| + |B - T| := by
    have := abs_add_le (A - B) (B - T)
    rwa [sub_add_sub_cancel] at this
  have herrF : 0 ≤ errF F levels := by unfold errF; positivity
  have herrB : 0 ≤ errB F levels (val depth) := by unfold errB errF; positivity
  have hfin : errF F levels + u F * (3 * magF levels + 5) * val depth ≤ embedSlack F levels * val depth := by
    have h1 : 0 ≤ 2 ^ levels * errB F levels (val depth) := by positivity
    have h2 : u F * (3 * magF levels + 5) * val depth ≤ u F * (5 * magF levels + 20) * val depth := by
      apply mul_le_mul_of_nonneg_right _ hD.le
      apply mul_le_mul_of_nonneg_left _ hu
      linarith
    linarith
  rw [sub_mul] at hk ⊢
  linarith

/-- C87: what extraction reads: if the blocks carry the bits of some bytes, these bytes are what the decoder is given first; the picture
may be saturated and need not have been marked. -/
theorem extract_carries (L : Ldpc) (n levels : Nat) (image : Mat UInt8) (depth : F) (hg : EmbedGeometry n levels image)
    (hd : GoodDepth depth) (hd1 : 1 ≤ val depth) (bytes : List UInt8) (hb : bytes.length ≤ domainBytes n levels)
    (hcar : Carries n levels image (val depth) (embedSlack F levels) (bytesBits bytes)) :
    ∃ rest, (bytes ++ rest).length = domainBytes n levels ∧
      extract L image depth levels = (decode L (bytes ++ rest) (domainBytes n levels)).bind dataDeserialize := by
  have hfit : 8 * bytes.length ≤ (n / 2 ^ levels) * (n / 2 ^ levels) := by unfold domainBytes at hb; omega
  obtain ⟨rest, hread, hlen⟩ := read_prefix (⟨n / 2 ^ levels, n / 2 ^ levels, coeffs n levels image⟩ : Mat F) depth
    (n / 2 ^ levels) rfl rfl bytes hfit (by
      intro o ho
      exact carried_cell n levels image depth hg hd hd1 (bytesBits bytes) hcar o (by simpa using ho) (by simpa using hfit))
  refine ⟨rest, hlen, ?_⟩
  rw [extract_forward L image depth levels n hg.square hg.levels_pos hg.levels_le hg.divisible, hread, getDomainCapacity_eq]
  simp only [bind, Except.bind]
  have hc : 9 ≤ n / 2 ^ levels * (n / 2 ^ levels) / 8 := hg.capacity
  rw [if_pos hc]
  rfl

/-- C87: a picture whose blocks carry the encoding of a payload is read as that payload, whoever wrote it there. -/
theorem carried_payload (L : Ldpc) (hL : L.DecodesClean) (n levels : Nat) (image : Mat UInt8) (payload : List UInt8) (depth : F)
    (hg : EmbedGeometry n levels image) (hd : GoodDepth depth) (hd1 : 1 ≤ val depth)
    (hsup : SupportedCapacity (domainBytes n levels)) (hal : blockBytes (domainBytes n levels) ∣ domainBytes n levels)
    (hp1 : 1 ≤ payload.length) (hp2 : payload.length ≤ 65533) (hfit : payload.length + 4 ≤ domainBytes n levels / 2)
    (record : List UInt8) (hrec : dataSerialize payload = .ok record)
    (hcar : Carries n levels image (val depth) (embedSlack F levels) (bytesBits (encode L record (domainBytes n levels)))) :
    extract L image depth levels = .ok payload := by
  obtain ⟨record', hrec', hread⟩ := data_roundtrip payload hp1 (by omega)
  rw [hrec] at hrec'
  obtain rfl := Except.ok.inj hrec'
  have hel := encode_record_length L payload record hrec (domainBytes n levels)
  obtain ⟨rest, hlen, hx⟩ := extract_carries L n levels image depth hg hd hd1 (encode L record (domainBytes n levels))
    (by rw [hel]; exact encodedLength_fits _ _ hsup hal hfit) hcar
  have hrl : record.length ≤ 65535 := by
    rw [(data_serialize_spec payload).1 (by omega)] at hrec
    cases hrec
    simp; omega
  have hrest : blockBytes (domainBytes n levels) ∣ rest.length := by
    rw [List.length_append, encode_length L record _ hsup] at hlen
    have : blockBytes (domainBytes n levels) ∣ blockCount (domainBytes n levels) record * blockBytes (domainBytes n levels) + rest.length := by
      rw [hlen]; exact hal
    exact (Nat.dvd_add_right (Dvd.intro_left _ rfl)).mp this
  rw [hx, decode_encode L hL record rest _ hsup hrl hrest]
  have := hread []
  simpa [Except.bind] using this

/-- C87: the verdict on a picture that carries a record: the signature in the record is checked against the features of the picture,
restored with the bits in the record, and nothing else about the picture matters. -/
theorem carried_verdict (D : Deps F) (hD : D.Actual) (c : GrayImage) (n levels a : Nat) (depth step : F) (hc : c.IsSquare n)
    (hg : EmbedGeometry n levels c.pixels) (hd : GoodDepth depth) (hd1 : 1 ≤ val depth)
    (hsup : SupportedCapacity (domainBytes n levels)) (hal : blockBytes (domainBytes n levels) ∣ domainBytes n levels)
    (w : Watermark) (payload record : List UInt8) (hw : w.serialize = .ok payload) (hfit : payload.length + 4 ≤ domainBytes n levels / 2)
    (hrec : dataSerialize payload = .ok record)
    (hcar : Carries n levels c.pixels (val depth) (embedSlack F levels) (bytesBits (encode D.ldpc record (domainBytes n levels))))
    (gs : List F) (q : List Int) (hf : equalizedFeatures D c a = .ok gs)
    (hq : threeBitDequantization gs w.perturbationVector step = .ok q) (hsig : D.ed.signatureOk w.signature = true) :
    authenticateChannel D c depth step a levels = .ok (D.ed.verify builtinPublic (vecI64ToBytes q) w.signature) := by
  obtain ⟨h1, -, h2⟩ := actual_contracts D hD
  have hfits : w.Fits := (watermark_serialize_iff w).mp ⟨_, hw⟩
  have hlen := watermark_serialize_length w payload hw
  have hx := carried_payload D.ldpc h1 n levels c.pixels payload depth hg hd hd1 hsup hal (by omega)
    (by obtain ⟨f1, f2, f3⟩ := hfits; omega) hfit record hrec hcar
  obtain ⟨payload', hs, hdes⟩ := watermark_roundtrip w hfits
  rw [hw] at hs
  obtain rfl := Except.ok.inj hs
  rw [authenticate_iff]
  refine ⟨by rw [hc.1, hc.2.1, hc.2.2], gs, payload, w, q, hf, hx, ?_, hq, h2.public_ok, hsig, rfl⟩
  have := hdes []
  rwa [List.append_nil] at this

end
/-- The record that every centrally symmetric picture of side 512 is marked with, encoded. -/
noncomputable def symmetricCode : List UInt8 :=
  match symmetricWatermark.serialize with
  | .ok payload =>
    match dataSerialize payload with
    | .ok record => encode Ldpc.ccsds record (domainBytes 512 3)
    | .error _ => []
  | .error _ => []

theorem symmetricCode_spec : ∃ payload record, symmetricWatermark.serialize = .ok payload ∧ payload.length = recordBytes 11 ∧
    dataSerialize payload = .ok record ∧ symmetricCode = encode Ldpc.ccsds record (domainBytes 512 3) ∧
    symmetricCode.length = 256 := by
  obtain ⟨payload, hp⟩ := symmetricWatermark_serialize
  have hlen : payload.length = recordBytes 11 := by
    have := watermark_serialize_length _ payload hp
    rw [this]
    unfold symmetricWatermark
    dsimp only
    rw [Ed25519.rfc8032.sign_length, watermarkText_size]
    decide
  have hr := (data_serialize_spec payload).1 (by rw [hlen]; decide)
  have hc : symmetricCode = encode Ldpc.ccsds ([UInt8.ofNat (payload.length % 256), UInt8.ofNat (payload.length / 256)] ++ payload)
      (domainBytes 512 3) := by
    unfold symmetricCode
    rw [hp]
    dsimp only
    rw [hr]
  refine ⟨payload, _, hp, hlen, hr, hc, ?_⟩
  rw [hc, encode_record_length _ payload _ hr, hlen]
  decide

theorem depth100 : val (F64.fin 100) = 100 ∧ GoodDepth (F64.fin 100) := by
  have hval : val (F64.fin 100) = 100 := by
    show (((100 : ℚ) : ℝ)) = 100
    norm_num
  exact ⟨hval, trivial, by rw [hval]; norm_num, by rw [hval]; norm_num⟩

/-- C87: every centrally symmetric picture of side 512 whose blocks carry the record of symmetric pictures is accepted by the program
with its actual settings, whatever it shows and whoever wrote the record: no key is needed. -/
theorem symmetric_accepted (M : Libm F64) (hM : M.Lawful) (hM2 : ∀ x y, M.hypot x y = .nan ∨ FloatOps.ge (M.hypot x y) (.fin 0) = true)
    (c : GrayImage) (hc : c.IsSquare 512) (h : CentrallySymmetric 512 c)
    (hcar : Carries 512 3 c.pixels 100 (1 / 2 ^ 26) (bytesBits symmetricCode)) :
    authenticateChannel (Deps.program M) c (.fin 100) (.fin 1) 11 3 = .ok true := by
  obtain ⟨payload, record, h1, h2, h3, h4, _⟩ := symmetricCode_spec
  obtain ⟨hval, hgood⟩ := depth100
  obtain ⟨fs, hf, hq⟩ := symmetric_cells M hM hM2 c 512 11 1 hc h (by norm_num) (by norm_num) (by norm_num) (by norm_num) (by norm_num)
    (by norm_num)
  obtain ⟨-, -, hk⟩ := actual_contracts (Deps.program M) (program_actual M)
  have hsl := embedSlack_double 3 le_rfl
  rw [carried_verdict (Deps.program M) (program_actual M) c 512 3 11 (.fin 100) (.fin 1) hc
    ⟨⟨hc.1, hc.2.1⟩, by decide, by decide, by decide, by decide⟩ hgood (by rw [hval]; norm_num) (by decide) (by decide)
    symmetricWatermark payload record h1 (by rw [h2]; decide) h3 (by
      rw [hval]
      intro i hi j hj ho
      have e : bytesBits (encode (Deps.program M).ldpc record (domainBytes 512 3)) = bytesBits symmetricCode := by rw [h4]; rfl
      rw [e] at ho ⊢
      obtain ⟨k, hk⟩ := hcar i hi j hj ho
      refine ⟨k, lt_of_lt_of_le hk ?_⟩
      have : embedSlack F64 3 * 100 ≤ 1 / 2 ^ 26 * 100 := mul_le_mul_of_nonneg_right hsl (by norm_num)
      rw [sub_mul, sub_mul]
      linarith) fs _ hf (dequantization_unchanged fs _ _ _ hq) (hk.parses _)]
  exact congrArg Except.ok (hk.verifies _)

/-- The picture of side 512 with the given upper half, the lower half being the upper one turned by 180 degrees. -/
def mirrored (g : Nat → Nat → UInt8) : GrayImage :=
  ⟨512, 512, (List.range (512 * 512)).map fun k => if k / 512 < 256 then g (k / 512) (k % 512) else g (511 - k / 512) (511 - k % 512)⟩

theorem mirrored_square (g : Nat → Nat → UInt8) : (mirrored g).IsSquare 512 := by
  refine ⟨rfl, rfl, ?_⟩
  unfold mirrored
  rw [List.length_map, List.length_range]

theorem mirrored_get (g : Nat → Nat → UInt8) (i j : Nat) (hi : i < 512) (hj : j < 512) :
    (mirrored g).pixels.get i j = if i < 256 then g i j else g (511 - i) (511 - j) := by
  have hk : i * 512 + j < 512 * 512 := by omega
  rw [pixels_get_raw, (mirrored_square g).2.1]
  unfold mirrored
  dsimp only
  rw [List.getD_eq_getElem _ _ (by rw [List.length_map, List.length_range]; exact hk), List.getElem_map, List.getElem_range]
  rw [show (i * 512 + j) / 512 = i by omega, show (i * 512 + j) % 512 = j by omega]

theorem mirrored_symmetric (g : Nat → Nat → UInt8) : CentrallySymmetric 512 (mirrored g) := by
  intro i hi j hj
  rw [mirrored_get g _ _ (by omega) (by omega), mirrored_get g i j hi hj]
  by_cases h : i < 256
  · rw [if_neg (by omega : ¬ 512 - 1 - i < 256), if_pos h, show 511 - (512 - 1 - i) = i by omega,
      show 511 - (512 - 1 - j) = j by omega]
  · rw [if_pos (by omega : 512 - 1 - i < 256), if_neg h]

/-- C87: every centrally symmetric picture of side 512 with levels between 10 and 245 can be turned, by changing every pixel by at most 9
levels, into a picture that the program accepts, one and the same for all mathematical libraries. -/
theorem symmetric_pictures_forgeable (y : GrayImage) (hy : y.IsSquare 512) (hsym : CentrallySymmetric 512 y)
    (hpix : ∀ i < 512, ∀ j < 512, 10 ≤ (y.pixels.get i j).toNat ∧ (y.pixels.get i j).toNat ≤ 245) :
    ∃ x : GrayImage, x.IsSquare 512 ∧ CentrallySymmetric 512 x ∧
      (∀ i < 512, ∀ j < 512, |((x.pixels.get i j).toNat : ℤ) - ((y.pixels.get i j).toNat : ℤ)| ≤ 9) ∧
      ∀ M : Libm F64, M.Lawful → (∀ x y, M.hypot x y = .nan ∨ FloatOps.ge (M.hypot x y) (.fin 0) = true) →
        authenticateChannel (Deps.program M) x (.fin 100) (.fin 1) 11 3 = .ok true := by
  obtain ⟨payload, record, h1, h2, h3, h4, h5⟩ := symmetricCode_spec
  obtain ⟨hval, hgood⟩ := depth100
  have hsl := embedSlack_double 3 le_rfl
  have hs0 := embedSlack_nonneg (F := F64) 3
  have hysq : y.pixels.IsSquare 512 := ⟨hy.1, hy.2.1⟩
  have hpixR : ∀ i < 512, ∀ j < 512, (10 : ℝ) ≤ ((y.pixels.get i j).toNat : ℝ) ∧ ((y.pixels.get i j).toNat : ℝ) ≤ 245 := by
    intro i hi j hj
    obtain ⟨a, b⟩ := hpix i hi j hj
    exact ⟨by exact_mod_cast a, by exact_mod_cast b⟩
  have hlen : 8 * encodedLength (domainBytes 512 3) payload.length = 2048 := by rw [h2]; decide
  obtain ⟨m, he, hm, _⟩ := extract_tolerates_noise Ldpc.ccsds (actual_contracts (Deps.program idealLibm) (program_actual _)).1 512 3 y.pixels
    payload (F64.fin 100) 0 ⟨hysq, by decide, by decide, by decide, by decide⟩
    ⟨trivial, by rw [hval]; norm_num, le_rfl, by rw [hval]; norm_num at hsl ⊢; linarith, by
      intro i hi j hj
      obtain ⟨a, b⟩ := hpixR i hi j hj
      rw [hval]
      norm_num at hsl ⊢
      constructor <;> linarith⟩ (by decide) (by decide) (by rw [h2]; decide) (by rw [h2]; decide) (by rw [h2]; decide)
  have hsl2 : embedSlack F64 3 ≤ 1 / 100000 := by
    norm_num at hsl ⊢
    linarith
  -- one block
  have hblock : ∀ i < 256, ∀ j < 512, ∃ k : ℤ, |(k : ℝ) - blockValue 3 y.pixels i j / 100| ≤ 1 / 2 + embedSlack F64 3 ∧
      ∀ x < 512, ∀ z < 512, x / 2 ^ 3 = i / 2 ^ 3 → z / 2 ^ 3 = j / 2 ^ 3 →
        |((m.get x z).toNat : ℝ) - (((y.pixels.get x z).toNat : ℝ) +
          (100 * (k + signedQuarter ((bytesBits symmetricCode).getD (pixelCell 512 3 i j) false)) - blockValue 3 y.pixels i j) / 2 ^ 3)| ≤
            1 / 2 + 1 / 1000 ∧
        |(100 * (k + signedQuarter ((bytesBits symmetricCode).getD (pixelCell 512 3 i j) false)) - blockValue 3 y.pixels i j) / 2 ^ 3| ≤
          9 + 2 / 5 := by
    intro i hi j hj
    obtain ⟨k, k1, k2⟩ := embed_block Ldpc.ccsds 512 3 y.pixels m payload record (F64.fin 100) (by norm_num) hysq hgood
      (by rw [hval]; norm_num) he h3 i j (by omega) hj (by rw [hlen]; unfold pixelCell; omega)
    rw [hval] at k1
    refine ⟨k, k1, fun x hx z hz hxi hzj => ?_⟩
    have k3 := k2 x hx z hz hxi hzj
    rw [hval, ← h4] at k3
    obtain ⟨a, b⟩ := hpixR x hx z hz
    have hq : |signedQuarter ((bytesBits symmetricCode).getD (pixelCell 512 3 i j) false)| ≤ 1 / 4 := by
      unfold signedQuarter
      split_ifs <;> norm_num [abs_le]
    generalize signedQuarter ((bytesBits symmetricCode).getD (pixelCell 512 3 i j) false) = w at *
    generalize blockValue 3 y.pixels i j = S at *
    have hshift : |(100 * ((k : ℝ) + w) - S) / 2 ^ 3| ≤ 9 + 2 / 5 := by
      obtain ⟨b1, b2⟩ := abs_le.mp k1
      obtain ⟨b3, b4⟩ := abs_le.mp hq
      rw [abs_le]
      norm_num
      constructor <;> linarith
    refine ⟨?_, hshift⟩
    obtain ⟨b1, b2⟩ := abs_le.mp hshift
    have hcl : clampPixel (((y.pixels.get x z).toNat : ℝ) + (100 * ((k : ℝ) + w) - S) / 2 ^ 3) =
        ((y.pixels.get x z).toNat : ℝ) + (100 * ((k : ℝ) + w) - S) / 2 ^ 3 := by
      unfold clampPixel
      rw [min_eq_right (by linarith), max_eq_right (by linarith)]
    rw [hcl] at k3
    refine k3.trans ?_
    norm_num
    linarith
  refine ⟨mirrored m.get, mirrored_square _, mirrored_symmetric _, ?_, ?_⟩
  · have hup : ∀ i < 256, ∀ j < 512, |((m.get i j).toNat : ℤ) - ((y.pixels.get i j).toNat : ℤ)| ≤ 9 := by
      intro i hi j hj
      obtain ⟨k, _, k2⟩ := hblock i hi j hj
      obtain ⟨k3, k4⟩ := k2 i (by omega) j hj rfl rfl
      generalize (100 * ((k : ℝ) + signedQuarter ((bytesBits symmetricCode).getD (pixelCell 512 3 i j) false)) -
        blockValue 3 y.pixels i j) / 2 ^ 3 = d at k3 k4
      have : |(((m.get i j).toNat : ℤ) - ((y.pixels.get i j).toNat : ℤ) : ℝ)| < 10 := by
        push_cast
        obtain ⟨b1, b2⟩ := abs_le.mp k3
        obtain ⟨b3, b4⟩ := abs_le.mp k4
        rw [abs_lt]
        constructor <;> linarith
      have h10 : |((m.get i j).toNat : ℤ) - ((y.pixels.get i j).toNat : ℤ)| < 10 := by exact_mod_cast this
      omega
    intro i hi j hj
    rw [mirrored_get _ i j hi hj]
    split_ifs with hlt
    · exact hup i hlt j hj
    · have := hup (511 - i) (by omega) (511 - j) (by omega)
      have hs := hsym i hi j hj
      rw [show 512 - 1 - i = 511 - i by omega, show 512 - 1 - j = 511 - j by omega] at hs
      rwa [hs] at this
  · intro M hM hM2
    refine symmetric_accepted M hM hM2 _ (mirrored_square _) (mirrored_symmetric _) ?_
    intro i hi j hj ho
    have ho' : pixelCell 512 3 i j < 2048 := by
      rw [bytesBits_length, h5] at ho
      exact ho
    have hi' : i < 256 := by
      unfold pixelCell at ho'
      omega
    obtain ⟨k, _, k2⟩ := hblock i hi' j hj
    refine ⟨k, ?_⟩
    have hdiff : |blockValue 3 (mirrored m.get).pixels i j -
        100 * (k + signedQuarter ((bytesBits symmetricCode).getD (pixelCell 512 3 i j) false))| ≤ 8 * (1 / 2 + 1 / 1000) := by
      set d := (100 * ((k : ℝ) + signedQuarter ((bytesBits symmetricCode).getD (pixelCell 512 3 i j) false)) -
        blockValue 3 y.pixels i j) / 2 ^ 3 with hd
      have e1 : 100 * ((k : ℝ) + signedQuarter ((bytesBits symmetricCode).getD (pixelCell 512 3 i j) false)) =
          (∑ a ∈ range (2 ^ 3), ∑ b ∈ range (2 ^ 3),
            (((y.pixels.get (i / 2 ^ 3 * 2 ^ 3 + a) (j / 2 ^ 3 * 2 ^ 3 + b)).toNat : ℝ) + d)) / 2 ^ 3 := by
        rw [sum_congr rfl fun a _ => sum_add_distrib, sum_add_distrib]
        simp only [sum_const, card_range, nsmul_eq_mul]
        rw [add_div]
        have : blockValue 3 y.pixels i j = (∑ a ∈ range (2 ^ 3), ∑ b ∈ range (2 ^ 3),
          ((y.pixels.get (i / 2 ^ 3 * 2 ^ 3 + a) (j / 2 ^ 3 * 2 ^ 3 + b)).toNat : ℝ)) / 2 ^ 3 := rfl
        rw [← this, hd]
        push_cast
        ring
      rw [e1]
      unfold blockValue
      rw [← sub_div, ← sum_sub_distrib, abs_div, abs_of_pos (show (0 : ℝ) < 2 ^ 3 by norm_num), div_le_iff₀ (by norm_num)]
      refine (abs_sum_le_sum_abs _ _).trans ?_
      have : ∀ a ∈ range (2 ^ 3), |∑ b ∈ range (2 ^ 3), (((mirrored m.get).pixels.get (i / 2 ^ 3 * 2 ^ 3 + a) (j / 2 ^ 3 * 2 ^ 3 + b)).toNat : ℝ) -
          ∑ b ∈ range (2 ^ 3), (((y.pixels.get (i / 2 ^ 3 * 2 ^ 3 + a) (j / 2 ^ 3 * 2 ^ 3 + b)).toNat : ℝ) + d)| ≤ 8 * (1 / 2 + 1 / 1000) := by
        intro a ha
        have ha' := mem_range.mp ha
        rw [← sum_sub_distrib]
        refine (abs_sum_le_sum_abs _ _).trans ?_
        refine (sum_le_card_nsmul _ _ (1 / 2 + 1 / 1000) ?_).trans ?_
        · intro b hb
          have hb' := mem_range.mp hb
          rw [mirrored_get _ _ _ (by omega) (by omega), if_pos (by omega)]
          exact (k2 _ (by omega) _ (by omega) (by omega) (by omega)).1
        · rw [card_range, nsmul_eq_mul]
          norm_num
      refine (sum_le_card_nsmul _ _ _ this).trans ?_
      rw [card_range, nsmul_eq_mul]
      norm_num
    refine lt_of_le_of_lt hdiff ?_
    norm_num

end Sia
