import Verif.Lemmas.EmbedLemmas

/-! C22–C24, C26, C27: embedding a payload into an image and extracting it. -/
namespace Sia
open FloatOps LawfulFloat

section
variable {F : Type} [FloatOps F] [LawfulFloat F]

theorem SignalOK.good {n levels : Nat} {image : Mat UInt8} {depth : F} {t : ℝ} (h : SignalOK n levels image depth t)
    (hn : 0 < n) (hL : levels ≤ 30) : GoodDepth depth ∧ 1 ≤ val depth := by
  have hs := embedSlack_nonneg (F := F) levels
  have h0 := h.depth_pos
  have hd1 : 1 ≤ val depth := by
    have h1 := h.depth_large
    have h2 := h.noise_nonneg
    have h3 : (1 : ℝ) ≤ 2 ^ levels := one_le_pow₀ (by norm_num)
    by_contra hlt
    push Not at hlt
    have h4 : (1 / 2 : ℝ) ≤ 2 ^ levels * (t + 1 / 2) := by nlinarith
    nlinarith
  refine ⟨⟨h.depth_fin, le_trans ?_ hd1, ?_⟩, hd1⟩
  · norm_num
  · obtain ⟨u1, u2⟩ := h.unsaturated 0 hn 0 hn
    have h5 : (0 : ℝ) < 2 ^ levels := by positivity
    have h6 : (3 / 4 + embedSlack F levels) * val depth / 2 ^ levels ≤ 255 := by
      have : (0 : ℝ) ≤ ((image.get 0 0).toNat : ℝ) := by positivity
      linarith
    rw [div_le_iff₀ h5] at h6
    have h7 : (2 : ℝ) ^ levels ≤ 2 ^ 30 := pow_le_pow_right₀ (by norm_num) hL
    norm_num at h7 ⊢
    nlinarith

theorem EmbedGeometry.n_pos {n levels : Nat} {image : Mat UInt8} (h : EmbedGeometry n levels image) : 0 < n := by
  have := h.capacity
  unfold domainBytes at this
  rcases Nat.eq_zero_or_pos n with rfl | h0
  · simp at this
  · exact h0

/-- `encode` of the record of a payload has the specified length. -/
theorem encode_record_length (L : Ldpc) (payload record : List UInt8) (hrec : dataSerialize payload = .ok record) (cap : Nat) :
    (encode L record cap).length = encodedLength cap payload.length := by
  have hlen : payload.length ≤ 65535 := by
    by_contra h
    rw [(data_serialize_spec payload).2 (by omega)] at hrec
    simp at hrec
  rw [(data_serialize_spec payload).1 hlen] at hrec
  cases hrec
  unfold encodedLength
  by_cases hs : SupportedCapacity cap
  · rw [if_pos hs, encode_length _ _ _ hs]
    unfold blockCount
    simp only [List.length_append, List.length_cons, List.length_nil]
    congr 3
    omega
  · rw [if_neg hs]
    unfold encode
    rw [unsupported_spec cap hs]
    simp

/-- What is read back from a marked image after noise: the encoded bytes, cell by cell. -/
theorem marked_cell (n levels : Nat) (image noisy : Mat UInt8) (depth : F) (t : ℝ)
    (hg : EmbedGeometry n levels image) (hs : SignalOK n levels image depth t) (bits : List Bool)
    (o : Nat) (ho : o < bits.length) (hb : bits.length ≤ (n / 2 ^ levels) * (n / 2 ^ levels))
    (hnoise : ∀ i < n, ∀ j < n, i / 2 ^ levels = o / (n / 2 ^ levels) → j / 2 ^ levels = o % (n / 2 ^ levels) →
      |((noisy.get i j).toNat : ℝ) - ((floatToPixel (spatial n levels image depth bits i j)).toNat : ℝ)| ≤ t) :
    readCell depth (coeffs n levels noisy (o / (n / 2 ^ levels)) (o % (n / 2 ^ levels)) : F) = bits.getD o false := by
  obtain ⟨good, hd1⟩ := hs.good hg.n_pos hg.levels_le
  obtain ⟨a1, a2⟩ := addr_lt (n / 2 ^ levels) o (by omega)
  have hin : ∀ i p, p < n / 2 ^ levels → i / 2 ^ levels = p → i < n := by
    intro i p hp hi
    have : i < (p + 1) * 2 ^ levels := by
      rw [← hi, Nat.succ_mul, mul_comm]
      have e1 := Nat.div_add_mod i (2 ^ levels)
      have e2 := Nat.mod_lt i (show 0 < 2 ^ levels by positivity)
      omega
    have h2 : (p + 1) * 2 ^ levels ≤ n / 2 ^ levels * 2 ^ levels := Nat.mul_le_mul_right _ hp
    rw [Nat.div_mul_cancel hg.divisible] at h2
    omega
  have e : o / (n / 2 ^ levels) * (n / 2 ^ levels) + o % (n / 2 ^ levels) = o := by
    rw [mul_comm]; exact Nat.div_add_mod _ _
  have := cell_survives image noisy n levels hg.levels_pos hg.levels_le hg.divisible depth good hd1 bits t hs.depth_large
    (o / (n / 2 ^ levels)) (o % (n / 2 ^ levels)) a1 a2 (by rw [e]; exact ho)
    (fun i j hi hj => hs.unsaturated i (hin i _ a1 hi) j (hin j _ a2 hj))
    (fun i j hi hj => hnoise i (hin i _ a1 hi) j (hin j _ a2 hj) hi hj)
  rw [e] at this
  exact this

/-- Under the geometry and signal conditions, embedding succeeds and the encoded record is read back from every image within
the noise bound. -/
theorem marked_reads_back (L : Ldpc) (n levels : Nat) (image : Mat UInt8) (payload record : List UInt8) (depth : F) (t : ℝ)
    (hg : EmbedGeometry n levels image) (hs : SignalOK n levels image depth t)
    (hrec : dataSerialize payload = .ok record)
    (hfit : encodedLength (domainBytes n levels) payload.length ≤ domainBytes n levels) :
    ∃ out, embed L image payload depth levels = .ok out ∧ out.IsSquare n ∧
      ∀ noisy, WithinNoise n t out noisy → ∃ rest,
        (encode L record (domainBytes n levels) ++ rest).length = domainBytes n levels ∧
        extract L noisy depth levels =
          (decode L (encode L record (domainBytes n levels) ++ rest) (domainBytes n levels)).bind dataDeserialize := by
  have hel := encode_record_length L payload record hrec (domainBytes n levels)
  have hfit' : 8 * (encode L record (domainBytes n levels)).length ≤ (n / 2 ^ levels) * (n / 2 ^ levels) := by
    rw [hel]; unfold domainBytes at hfit ⊢; omega
  have he := embed_ok (F := F) L image payload depth levels n hg.square hg.levels_pos hg.levels_le hg.divisible record hrec
    hg.capacity hfit'
  refine ⟨_, he, ⟨rfl, rfl⟩, ?_⟩
  rintro noisy ⟨hsq, hnoise⟩
  obtain ⟨rest, hread, hlen⟩ := read_prefix (⟨n / 2 ^ levels, n / 2 ^ levels, coeffs n levels noisy⟩ : Mat F) depth
    (n / 2 ^ levels) rfl rfl (encode L record (domainBytes n levels)) hfit' (by
      intro o ho
      exact marked_cell n levels image noisy depth t hg hs (bytesBits (encode L record (domainBytes n levels))) o
        (by simpa using ho) (by simpa using hfit') (fun i hi j hj _ _ => hnoise i hi j hj))
  refine ⟨rest, hlen, ?_⟩
  rw [extract_forward L noisy depth levels n hsq hg.levels_pos hg.levels_le hg.divisible, hread, getDomainCapacity_eq]
  simp only [bind, Except.bind]
  have hc : 9 ≤ n / 2 ^ levels * (n / 2 ^ levels) / 8 := hg.capacity
  rw [if_pos hc]
  rfl

/-- At a supported block-aligned capacity an encoded payload fits iff payload and headers take at most half of it. -/
theorem encodedLength_fits (cap len : Nat) (hs : SupportedCapacity cap) (ha : blockBytes cap ∣ cap) (h : len + 4 ≤ cap / 2) :
    encodedLength cap len ≤ cap := by
  obtain ⟨_, _, _, h8⟩ := codeAt_sizes cap
  unfold encodedLength
  rw [if_pos hs]
  obtain ⟨c, hc⟩ := ha
  have hbb : blockBytes cap = 2 * dataBytes cap := rfl
  have h2 : len + 4 ≤ dataBytes cap * c := by
    rw [hbb, mul_assoc] at hc
    generalize dataBytes cap * c = X at *
    omega
  have h3 : (len + 4 + dataBytes cap - 1) / dataBytes cap ≤ c := by
    rw [Nat.div_le_iff_le_mul_add_pred (by omega)]
    omega
  calc (len + 4 + dataBytes cap - 1) / dataBytes cap * blockBytes cap ≤ c * blockBytes cap := Nat.mul_le_mul_right _ h3
    _ = cap := by rw [mul_comm]; exact hc.symm

/-- C24: for every arithmetic with the rounding-error model (exact reals: slack 0; binary64), if the LDPC library decodes
clean codewords, the capacity is supported and block aligned, and the payload of 1..65533 bytes with its headers takes at
most half the capacity, then embedding succeeds and the payload is extracted exactly from every image that differs from the
marked image by at most `t` in each pixel. -/
theorem extract_tolerates_noise (L : Ldpc) (hL : L.DecodesClean) (n levels : Nat) (image : Mat UInt8) (payload : List UInt8)
    (depth : F) (t : ℝ) (hg : EmbedGeometry n levels image) (hs : SignalOK n levels image depth t)
    (hsup : SupportedCapacity (domainBytes n levels)) (hal : blockBytes (domainBytes n levels) ∣ domainBytes n levels)
    (hp1 : 1 ≤ payload.length) (hp2 : payload.length ≤ 65533) (hfit : payload.length + 4 ≤ domainBytes n levels / 2) :
    ∃ out, embed L image payload depth levels = .ok out ∧ out.IsSquare n ∧
      ∀ noisy, WithinNoise n t out noisy → extract L noisy depth levels = .ok payload := by
  obtain ⟨record, hrec, hread⟩ := data_roundtrip payload hp1 (by omega)
  obtain ⟨out, h1, h2, h3⟩ := marked_reads_back L n levels image payload record depth t hg hs hrec
    (encodedLength_fits _ _ hsup hal hfit)
  refine ⟨out, h1, h2, fun noisy hn => ?_⟩
  obtain ⟨rest, hlen, hx⟩ := h3 noisy hn
  have hrl : record.length ≤ 65535 := by
    rw [(data_serialize_spec payload).1 (by omega)] at hrec
    cases hrec
    simp; omega
  have hrest : blockBytes (domainBytes n levels) ∣ rest.length := by
    rw [List.length_append, encode_length L record _ hsup] at hlen
    have : blockBytes (domainBytes n levels) ∣ blockCount (domainBytes n levels) record * blockBytes (domainBytes n levels) + rest.length := by
      rw [hlen]; exact hal
    exact (Nat.dvd_add_right (Dvd.intro_left _ rfl)).mp this
  rw [hx, decode_encode L hL record rest _ hsup hrl hrest]
  have := hread []
  simpa [Except.bind] using this

/-- C22: embed then extract returns the payload. -/
theorem extract_embed (L : Ldpc) (hL : L.DecodesClean) (n levels : Nat) (image : Mat UInt8) (payload : List UInt8)
    (depth : F) (hg : EmbedGeometry n levels image) (hs : SignalOK n levels image depth 0)
    (hsup : SupportedCapacity (domainBytes n levels)) (hal : blockBytes (domainBytes n levels) ∣ domainBytes n levels)
    (hp1 : 1 ≤ payload.length) (hp2 : payload.length ≤ 65533) (hfit : payload.length + 4 ≤ domainBytes n levels / 2) :
    ∃ out, embed L image payload depth levels = .ok out ∧ out.IsSquare n ∧ extract L out depth levels = .ok payload := by
  obtain ⟨out, h1, h2, h3⟩ := extract_tolerates_noise L hL n levels image payload depth 0 hg hs hsup hal hp1 hp2 hfit
  exact ⟨out, h1, h2, h3 out ⟨h2, by intro i _ j _; simp⟩⟩

/-- C23, floating point: every pixel of the marked image is within `(3/4 + slack) * depth / 2^levels + 1/2` of the source
pixel, for every square image, saturated or not, and every payload that embed accepts. -/
theorem embed_distortion_float (L : Ldpc) (n levels : Nat) (image out : Mat UInt8) (payload : List UInt8) (depth : F)
    (hn : 0 < n) (hsq : image.IsSquare n) (hd : GoodDepth depth) (hd1 : 1 ≤ val depth)
    (h : embed L image payload depth levels = .ok out) :
    out.IsSquare n ∧ ∀ i < n, ∀ j < n,
      |((out.get i j).toNat : ℝ) - ((image.get i j).toNat : ℝ)| ≤
        (3 / 4 + embedSlack F levels) * val depth / 2 ^ levels + 1 / 2 := by
  obtain ⟨a1, a2, a3, a4, a5, a6, a7⟩ := embed_ok_only L image out payload depth levels (by rw [hsq.1]; exact hn)
    (by rw [hsq.2]; exact hn) h
  rw [hsq.1, hsq.2] at a6 a7
  rw [hsq.1] at a3
  have hrec := (data_serialize_spec payload).1 a5
  rw [embed_ok L image payload depth levels n hsq a1 a2 a3 _ hrec a6 (a7 _ hrec)] at h
  cases h
  refine ⟨⟨rfl, rfl⟩, fun i hi j hj => ?_⟩
  dsimp only
  generalize bytesBits (encode L _ _) = bits
  obtain ⟨sf, se⟩ := spatial_near image n levels a2 a3 depth hd hd1 bits i j hi hj
  obtain ⟨c1, _, _⟩ := change_bound image n levels a2 a3 depth hd hd1 bits (i / 2 ^ levels) (j / 2 ^ levels)
  obtain ⟨_, s2⟩ := slack_bounds (F := F) levels a1 (val depth) hd1
  have h2L : (0 : ℝ) < 2 ^ levels := by positivity
  obtain ⟨p0, p1⟩ := pix_range image i j
  have hm : |change n levels image depth bits (i / 2 ^ levels) (j / 2 ^ levels) / 2 ^ levels| ≤
      (3 / 4 + u F * (3 * magF levels + 7)) * val depth / 2 ^ levels := by
    rw [abs_div, abs_of_pos h2L]
    exact div_le_div_of_nonneg_right c1 h2L.le
  have hfin := floatToPixel_dist _ sf (pix image i j) ((3 / 4 + embedSlack F levels) * val depth / 2 ^ levels) p0 p1 (by
    have e : val (spatial n levels image depth bits i j) - pix image i j =
        (val (spatial n levels image depth bits i j) - target n levels image depth bits i j) +
          change n levels image depth bits (i / 2 ^ levels) (j / 2 ^ levels) / 2 ^ levels := by
      unfold target; ring
    rw [e]
    refine le_trans (abs_add_le _ _) ?_
    refine le_trans (add_le_add se hm) ?_
    rw [← sub_nonneg]
    have : (3 / 4 + embedSlack F levels) * val depth / 2 ^ levels - (errB F levels (val depth) +
        (3 / 4 + u F * (3 * magF levels + 7)) * val depth / 2 ^ levels) =
        (embedSlack F levels * val depth - (2 ^ levels * errB F levels (val depth) + u F * (3 * magF levels + 7) * val depth)) / 2 ^ levels := by
      field_simp; ring
    rw [this]
    exact div_nonneg (by linarith) h2L.le)
  unfold pix at hfin
  linarith

end

/-- C23, exact arithmetic, every depth. -/
theorem embed_distortion (L : Ldpc) (n levels : Nat) (image out : Mat UInt8) (payload : List UInt8) (depth : ℝ)
    (hn : 0 < n) (hsq : image.IsSquare n) (hd : 0 < depth) (h : embed L image payload depth levels = .ok out) :
    out.IsSquare n ∧ ∀ i < n, ∀ j < n,
      |((out.get i j).toNat : ℝ) - ((image.get i j).toNat : ℝ)| ≤ 3 / 4 * depth / 2 ^ levels + 1 / 2 := by
  obtain ⟨a1, a2, a3, a4, a5, a6, a7⟩ := embed_ok_only L image out payload depth levels (by rw [hsq.1]; exact hn)
    (by rw [hsq.2]; exact hn) h
  rw [hsq.1, hsq.2] at a6 a7
  rw [hsq.1] at a3
  have hrec := (data_serialize_spec payload).1 a5
  rw [embed_ok L image payload depth levels n hsq a1 a2 a3 _ hrec a6 (a7 _ hrec)] at h
  cases h
  refine ⟨⟨rfl, rfl⟩, fun i hi j hj => ?_⟩
  dsimp only
  generalize bytesBits (encode L _ _) = bits
  have h2L : (0 : ℝ) < 2 ^ levels := by positivity
  obtain ⟨p0, p1⟩ := pix_range image i j
  have hco : (coeffs n levels image : Nat → Nat → ℝ) = fwdN n n levels (pix image) := by
    unfold coeffs pix
    congr 1
  have hsp : spatial n levels image depth bits i j = target n levels image depth bits i j := by
    rw [← target_eq image n levels a3 depth bits]
    unfold spatial
    congr 1
    funext i j
    unfold change
    rw [hco]
    show written n levels image depth bits i j = _
    split_ifs with hc
    · show _ = _ + ((written n levels image depth bits i j : ℝ) - fwdN n n levels (pix image) i j)
      ring
    · unfold written
      rw [if_neg (by tauto), hco]; ring
  have hch : |change n levels image depth bits (i / 2 ^ levels) (j / 2 ^ levels)| ≤ 3 / 4 * depth := by
    unfold change
    split_ifs with hc
    · show |(written n levels image depth bits _ _ : ℝ) - coeffs n levels image _ _| ≤ _
      unfold written
      split_ifs with hb
      · rw [writeCell_real]
        have h1 := roundAway_err ((coeffs n levels image (i / 2 ^ levels) (j / 2 ^ levels) : ℝ) / depth)
        set x := (coeffs n levels image (i / 2 ^ levels) (j / 2 ^ levels) : ℝ)
        set b := bits.getD (i / 2 ^ levels * (n / 2 ^ levels) + j / 2 ^ levels) false
        have e : depth * ((roundAway (x / depth) : ℝ) + quarter b) - x = depth * (((roundAway (x / depth) : ℝ) - x / depth) + quarter b) := by
          have hd0 : depth ≠ 0 := hd.ne'
          field_simp
          ring
        rw [e, abs_mul, abs_of_pos hd, mul_comm]
        apply mul_le_mul_of_nonneg_right _ hd.le
        have h2 : |quarter b| ≤ 1 / 4 := by unfold quarter; split_ifs <;> norm_num [abs_le]
        refine le_trans (abs_add_le _ _) ?_
        linarith
      · rw [sub_self, abs_zero]; positivity
    · rw [abs_zero]; positivity
  have hfin := floatToPixel_dist (spatial n levels image depth bits i j) trivial (pix image i j) (3 / 4 * depth / 2 ^ levels) p0 p1 (by
    show |(spatial n levels image depth bits i j : ℝ) - pix image i j| ≤ _
    rw [hsp]
    unfold target
    rw [add_sub_cancel_left, abs_div, abs_of_pos h2L]
    exact div_le_div_of_nonneg_right hch h2L.le)
  unfold pix at hfin
  linarith

/-! ### C26 -/

/-- C26: exactly when embedding into a non-empty square image succeeds. In particular nothing is ever truncated: if the
encoded payload does not fit, embed aborts. Any float type. -/
theorem embed_succeeds_iff {F : Type} [FloatOps F] (L : Ldpc) (n levels : Nat) (image : Mat UInt8) (payload : List UInt8)
    (depth : F) (hn : 0 < n) (hsq : image.IsSquare n) :
    (∃ out, embed L image payload depth levels = .ok out) ↔
      1 ≤ levels ∧ levels ≤ 30 ∧ 2 ^ levels ∣ n ∧ payload.length ≤ 65535 ∧ 9 ≤ domainBytes n levels ∧
        encodedLength (domainBytes n levels) payload.length ≤ domainBytes n levels := by
  constructor
  · rintro ⟨out, h⟩
    obtain ⟨a1, a2, a3, a4, a5, a6, a7⟩ := embed_ok_only L image out payload depth levels (by rw [hsq.1]; exact hn)
      (by rw [hsq.2]; exact hn) h
    rw [hsq.1, hsq.2] at a6 a7
    rw [hsq.1] at a3
    have hrec := (data_serialize_spec payload).1 a5
    have h8 := a7 _ hrec
    have hel := encode_record_length L payload _ hrec (domainBytes n levels)
    refine ⟨a1, a2, a3, a5, a6, ?_⟩
    rw [← hel]
    unfold domainBytes at *
    omega
  · rintro ⟨a1, a2, a3, a4, a5, a6⟩
    have hrec := (data_serialize_spec payload).1 a4
    have hel := encode_record_length L payload _ hrec (domainBytes n levels)
    refine ⟨_, embed_ok L image payload depth levels n hsq a1 a2 a3 _ hrec a5 ?_⟩
    rw [← hel] at a6
    unfold domainBytes at *
    omega

/-- C26: the errors reported for too small domains, too long payloads and lacking room; any rectangular non-empty image. -/
theorem embed_reports {F : Type} [FloatOps F] (L : Ldpc) (levels : Nat) (image : Mat UInt8) (payload : List UInt8) (depth : F)
    (hr : 0 < image.rows) (hc : 0 < image.cols)
    (hbad : 65535 < payload.length ∨ image.rows / 2 ^ levels * (image.cols / 2 ^ levels) / 8 < 9 ∨
      image.rows / 2 ^ levels * (image.cols / 2 ^ levels) / 8 <
        encodedLength (image.rows / 2 ^ levels * (image.cols / 2 ^ levels) / 8) payload.length) :
    ∃ e, embed L image payload depth levels = .error e := by
  cases h : embed L image payload depth levels with
  | error e => exact ⟨e, rfl⟩
  | ok out =>
    exfalso
    obtain ⟨a1, a2, a3, a4, a5, a6, a7⟩ := embed_ok_only L image out payload depth levels hr hc h
    have hrec := (data_serialize_spec payload).1 a5
    have h8 := a7 _ hrec
    rw [encode_record_length L payload _ hrec] at h8
    omega

/-! ### C27 -/

section
variable {F : Type} [FloatOps F] [LawfulFloat F]

/-- C27: with a supported aligned capacity, an empty payload or one of 65534 or 65535 bytes is embedded without complaint,
but extraction from the marked image (and from every image within the noise bound) aborts. -/
theorem accepted_but_lost (L : Ldpc) (hL : L.DecodesClean) (n levels : Nat) (image : Mat UInt8) (payload : List UInt8)
    (depth : F) (t : ℝ) (hg : EmbedGeometry n levels image) (hs : SignalOK n levels image depth t)
    (hsup : SupportedCapacity (domainBytes n levels)) (hal : blockBytes (domainBytes n levels) ∣ domainBytes n levels)
    (hp : payload.length = 0 ∨ payload.length = 65534 ∨ payload.length = 65535)
    (hfit : payload.length + 4 ≤ domainBytes n levels / 2) :
    ∃ out, embed L image payload depth levels = .ok out ∧
      ∀ noisy, WithinNoise n t out noisy → extract L noisy depth levels = .error .tooShortData := by
  have hrec := (data_serialize_spec payload).1 (by omega)
  set record := [UInt8.ofNat (payload.length % 256), UInt8.ofNat (payload.length / 256)] ++ payload with hrecord
  obtain ⟨out, h1, h2, h3⟩ := marked_reads_back L n levels image payload record depth t hg hs hrec
    (encodedLength_fits _ _ hsup hal hfit)
  refine ⟨out, h1, fun noisy hn => ?_⟩
  obtain ⟨rest, hlen, hx⟩ := h3 noisy hn
  have hrl : record.length = payload.length + 2 := by simp [hrecord]
  have hdec : decode L (encode L record (domainBytes n levels) ++ rest) (domainBytes n levels) =
      .ok (record.take (record.length % 65536)) := by
    obtain ⟨hk, hn', ho, h8⟩ := codeAt_sizes (domainBytes n levels)
    apply decode_general L record _ _ hsup
    · rw [hlen]; exact hal
    · rw [List.length_append, encode_length L record _ hsup]; omega
    · intro i hi
      rw [encode_receivedBlock L record rest _ hsup i hi]
      have hk8 : (codeAt (domainBytes n levels)).k / 8 = dataBytes (domainBytes n levels) := by omega
      rw [← hk8]
      exact hL _ _ (by rw [dataBlock_length]; omega)
  rw [hx, hdec]
  show dataDeserialize _ = _
  have hshort : (record.take (record.length % 65536)).length < 3 := by
    rw [List.length_take, hrl]; omega
  unfold dataDeserialize
  rw [if_pos hshort]
  rfl

/-- C27: with a capacity that no code supports, whatever the payload, extraction from the marked image (or any image within
the noise bound) never returns the payload. -/
theorem unsupported_capacity_loses (L : Ldpc) (n levels : Nat) (image : Mat UInt8) (payload : List UInt8)
    (depth : F) (t : ℝ) (hg : EmbedGeometry n levels image) (hs : SignalOK n levels image depth t)
    (hsup : ¬ SupportedCapacity (domainBytes n levels)) (hfit : payload.length + 4 ≤ domainBytes n levels) :
    ∃ out, embed L image payload depth levels = .ok out ∧
      ∀ noisy, WithinNoise n t out noisy → extract L noisy depth levels ≠ .ok payload := by
  have hcap : domainBytes n levels < 1024 := by
    by_contra h; exact hsup (by unfold SupportedCapacity; omega)
  have hrec := (data_serialize_spec payload).1 (by omega)
  set record := [UInt8.ofNat (payload.length % 256), UInt8.ofNat (payload.length / 256)] ++ payload with hrecord
  have hrl : record.length = payload.length + 2 := by simp [hrecord]
  obtain ⟨out, h1, h2, h3⟩ := marked_reads_back L n levels image payload record depth t hg hs hrec
    (by unfold encodedLength; rw [if_neg hsup]; exact hfit)
  refine ⟨out, h1, fun noisy hn => ?_⟩
  obtain ⟨rest, hlen, hx⟩ := h3 noisy hn
  have henc : encode L record (domainBytes n levels) =
      [UInt8.ofNat (record.length % 65536 / 256 % 256), UInt8.ofNat (record.length % 65536 % 256)] ++ record := by
    unfold encode
    rw [unsupported_spec _ hsup]
    rfl
  have hdec : ∀ bytes, decode L bytes (domainBytes n levels) = .ok bytes := by
    intro bytes
    unfold decode
    rw [unsupported_spec _ hsup]
  rw [hx, hdec, henc]
  intro hcontra
  simp only [Except.bind] at hcontra
  obtain ⟨a, b, r, e, _, hle, hpay⟩ := (data_parse_spec _ _).mp hcontra
  simp only [List.cons_append, List.nil_append, List.cons.injEq] at e
  obtain ⟨rfl, rfl, hr⟩ := e
  have hl := congrArg List.length hpay
  rw [List.length_take, Nat.min_eq_left hle] at hl
  simp only [UInt8.toNat_ofNat'] at hl
  have hm : record.length % 65536 = payload.length + 2 := by omega
  rw [hm] at hl
  have hm2 : payload.length + 2 < 1024 := by omega
  clear hle hpay hlen hx hrl hm
  generalize payload.length = m at hl hm2
  have e1 : (m + 2) / 256 % 256 % 2 ^ 8 = (m + 2) / 256 := by omega
  have e2 : (m + 2) % 256 % 2 ^ 8 = (m + 2) % 256 := by omega
  rw [e1, e2] at hl
  omega

end

/-! ### Instances -/

/-- The signal conditions for exact arithmetic in plain terms. -/
theorem signalOK_real (n levels : Nat) (image : Mat UInt8) (depth t : ℝ) (ht : 0 ≤ t)
    (hd : 2 ^ (levels + 1) * (2 * t + 1) < depth)
    (hpix : ∀ i < n, ∀ j < n, 3 / 4 * depth / 2 ^ levels ≤ ((image.get i j).toNat : ℝ) ∧
      ((image.get i j).toNat : ℝ) ≤ 255 - 3 / 4 * depth / 2 ^ levels) :
    SignalOK n levels image depth t := by
  have e : embedSlack ℝ levels = 0 := by
    show (0 : ℝ) * _ = 0; simp
  have hpos : 0 < depth := lt_of_le_of_lt (by positivity) hd
  refine ⟨trivial, hpos, ht, ?_, ?_⟩
  · rw [e]
    show _ < (1 / 4 - 0) * depth
    rw [pow_succ] at hd
    linarith
  · intro i hi j hj
    rw [e]
    show (3 / 4 + 0) * depth / 2 ^ levels ≤ _ ∧ _ ≤ 255 - (3 / 4 + 0) * depth / 2 ^ levels
    simpa using hpix i hi j hj

/-- C22/C24 in exact arithmetic, in plain terms. -/
theorem extract_tolerates_noise_exact (L : Ldpc) (hL : L.DecodesClean) (n levels : Nat) (image : Mat UInt8)
    (payload : List UInt8) (depth t : ℝ) (hg : EmbedGeometry n levels image) (ht : 0 ≤ t)
    (hd : 2 ^ (levels + 1) * (2 * t + 1) < depth)
    (hpix : ∀ i < n, ∀ j < n, 3 / 4 * depth / 2 ^ levels ≤ ((image.get i j).toNat : ℝ) ∧
      ((image.get i j).toNat : ℝ) ≤ 255 - 3 / 4 * depth / 2 ^ levels)
    (hsup : SupportedCapacity (domainBytes n levels)) (hal : blockBytes (domainBytes n levels) ∣ domainBytes n levels)
    (hp1 : 1 ≤ payload.length) (hp2 : payload.length ≤ 65533) (hfit : payload.length + 4 ≤ domainBytes n levels / 2) :
    ∃ out, embed L image payload depth levels = .ok out ∧ out.IsSquare n ∧
      ∀ noisy, WithinNoise n t out noisy → extract L noisy depth levels = .ok payload :=
  extract_tolerates_noise L hL n levels image payload depth t hg (signalOK_real n levels image depth t ht hd hpix) hsup hal
    hp1 hp2 hfit

theorem embedSlack_double (levels : Nat) (h : levels ≤ 3) : embedSlack F64 levels ≤ 1 / 2 ^ 26 := by
  show (1 / 2 ^ 53 : ℝ) * (2 ^ 15 * levels * (81 / 8) ^ levels) ≤ 1 / 2 ^ 26
  have : levels = 0 ∨ levels = 1 ∨ levels = 2 ∨ levels = 3 := by omega
  rcases this with rfl | rfl | rfl | rfl <;> norm_num

/-- The signal conditions for binary64 and at most three levels (the program uses three), in plain terms: a finite double
depth `x` with slack `2^-24` relative to exact arithmetic. -/
theorem signalOK_double (n levels : Nat) (hl : levels ≤ 3) (image : Mat UInt8) (x : ℚ) (t : ℝ) (ht : 0 ≤ t)
    (hd : 2 ^ (levels + 1) * (2 * t + 1) < (1 - 1 / 2 ^ 24) * (x : ℝ))
    (hpix : ∀ i < n, ∀ j < n, (3 / 4 + 1 / 2 ^ 26) * (x : ℝ) / 2 ^ levels ≤ ((image.get i j).toNat : ℝ) ∧
      ((image.get i j).toNat : ℝ) ≤ 255 - (3 / 4 + 1 / 2 ^ 26) * (x : ℝ) / 2 ^ levels) :
    SignalOK n levels image (F64.fin x) t := by
  have hs := embedSlack_double levels hl
  have hpos : (0 : ℝ) < x := by
    have h0 : (0 : ℝ) < 2 ^ (levels + 1) * (2 * t + 1) := by positivity
    by_contra hc
    push Not at hc
    have : (1 - 1 / 2 ^ 24) * (x : ℝ) ≤ 0 := mul_nonpos_of_nonneg_of_nonpos (by norm_num) hc
    linarith
  refine ⟨trivial, hpos, ht, ?_, ?_⟩
  · show _ < (1 / 4 - embedSlack F64 levels) * (x : ℝ)
    rw [pow_succ] at hd
    have : embedSlack F64 levels * (x : ℝ) ≤ 1 / 2 ^ 26 * (x : ℝ) := mul_le_mul_of_nonneg_right hs hpos.le
    norm_num at hd this ⊢
    linarith
  · intro i hi j hj
    obtain ⟨h1, h2⟩ := hpix i hi j hj
    have h2L : (0 : ℝ) < 2 ^ levels := by positivity
    have : (3 / 4 + embedSlack F64 levels) * (x : ℝ) / 2 ^ levels ≤ (3 / 4 + 1 / 2 ^ 26) * (x : ℝ) / 2 ^ levels := by
      apply div_le_div_of_nonneg_right _ h2L.le
      apply mul_le_mul_of_nonneg_right _ hpos.le
      linarith
    exact ⟨le_trans this h1, by
      show _ ≤ 255 - (3 / 4 + embedSlack F64 levels) * (x : ℝ) / 2 ^ levels
      linarith⟩

/-- C22/C24 for IEEE binary64 at up to three levels, in plain terms. -/
theorem extract_tolerates_noise_double (L : Ldpc) (hL : L.DecodesClean) (n levels : Nat) (hl : levels ≤ 3) (image : Mat UInt8)
    (payload : List UInt8) (x : ℚ) (t : ℝ) (hg : EmbedGeometry n levels image) (ht : 0 ≤ t)
    (hd : 2 ^ (levels + 1) * (2 * t + 1) < (1 - 1 / 2 ^ 24) * (x : ℝ))
    (hpix : ∀ i < n, ∀ j < n, (3 / 4 + 1 / 2 ^ 26) * (x : ℝ) / 2 ^ levels ≤ ((image.get i j).toNat : ℝ) ∧
      ((image.get i j).toNat : ℝ) ≤ 255 - (3 / 4 + 1 / 2 ^ 26) * (x : ℝ) / 2 ^ levels)
    (hsup : SupportedCapacity (domainBytes n levels)) (hal : blockBytes (domainBytes n levels) ∣ domainBytes n levels)
    (hp1 : 1 ≤ payload.length) (hp2 : payload.length ≤ 65533) (hfit : payload.length + 4 ≤ domainBytes n levels / 2) :
    ∃ out, embed L image payload (F64.fin x) levels = .ok out ∧ out.IsSquare n ∧
      ∀ noisy, WithinNoise n t out noisy → extract L noisy (F64.fin x) levels = .ok payload :=
  extract_tolerates_noise L hL n levels image payload (F64.fin x) t hg (signalOK_double n levels hl image x t ht hd hpix)
    hsup hal hp1 hp2 hfit

/-- A concrete case: a 512 x 512 image with pixels 100..131, three levels, depth 60, pixel noise up to 1, 100 payload bytes. -/
example : ∃ out, embed Ldpc.toy (⟨512, 512, fun i j => UInt8.ofNat (100 + (i * j) % 32)⟩ : Mat UInt8)
    (List.replicate 100 7) (F64.fin 60) 3 = .ok out ∧ out.IsSquare 512 ∧
      ∀ noisy, WithinNoise 512 1 out noisy → extract Ldpc.toy noisy (F64.fin 60) 3 = .ok (List.replicate 100 7) := by
  refine extract_tolerates_noise_double Ldpc.toy Ldpc.toy_decodesClean 512 3 le_rfl _ _ 60 1
    ⟨⟨rfl, rfl⟩, by decide, by decide, by decide, by decide⟩ (by norm_num) (by norm_num) ?_ (by decide) (by decide) (by simp)
    (by simp) (by simp [domainBytes])
  intro i _ j _
  have h1 : (UInt8.ofNat (100 + (i * j) % 32)).toNat = 100 + (i * j) % 32 := by
    rw [UInt8.toNat_ofNat']; omega
  dsimp only
  rw [h1]
  have h2 : (100 : ℝ) ≤ ((100 + (i * j) % 32 : ℕ) : ℝ) := by exact_mod_cast (by omega : 100 ≤ 100 + (i * j) % 32)
  have h3 : ((100 + (i * j) % 32 : ℕ) : ℝ) ≤ 131 := by exact_mod_cast (by omega : 100 + (i * j) % 32 ≤ 131)
  push_cast
  push_cast at h2 h3
  constructor <;> norm_num <;> linarith

end Sia
